{"claims": [
{"property": "C01", "status": "partial", "theorems": ["Huira.Registry.C01_lookup_of_name", "Huira.Registry.C01_names_distinct", "Huira.Registry.C01_lookup_sound", "Huira.Registry.C01_nonempty_violated", "Huira.Registry.C01_nonempty_partial", "Huira.Registry.C01_double_add_counterexample"], "note": "Everything proved for all histories except the non-empty clause, which the code violates (rename to the empty string)."},
{"property": "C02", "status": "proved", "theorems": ["Huira.Registry.C02_create", "Huira.Registry.C02_rename"], "note": ""},
{"property": "C03", "status": "partial", "theorems": ["Huira.Registry.C03_violated", "Huira.Registry.C03_always_changes"], "note": "The code violates the property in every state."},
{"property": "C04", "status": "proved", "theorems": ["Huira.Registry.C04_dead_handle", "Huira.Registry.C04_frame"], "note": ""},
{"property": "C05", "status": "partial", "theorems": ["Huira.SceneGraph.C05_violated", "Huira.SceneGraph.C05_partial"], "note": "Violated when a callback is installed on a frame with SPICE children; proved for every other history."},
{"property": "C06", "status": "partial", "theorems": ["Huira.SceneGraph.C06_violated", "Huira.SceneGraph.C06_partial", "Huira.SceneGraph.C06_orphan"], "note": "Violated by new_spice_subframe under a manual frame (orphan child remains); proved for every other call."},
{"property": "C07", "status": "partial", "theorems": ["Huira.SceneGraph.C07_delete_always_throws", "Huira.SceneGraph.C07_violated", "Huira.SceneGraph.C07_nodes_are_permanent", "Huira.SceneGraph.C07_instanced_asset_cannot_be_deleted"], "note": "Violated: deleting a node never succeeds; proved that it always throws and that nodes are permanent."},
{"property": "C08", "status": "partial", "theorems": ["Huira.Assets.C08_no_dangling", "Huira.Assets.C08_delete_geometry", "Huira.Assets.C08_delete_succeeds_violated", "Huira.Assets.C08_failed_delete_not_atomic", "Huira.Assets.C08_delete_succeeds_partial"], "note": "No-dangling part proved for all histories; delete-succeeds part violated and partial deletion shown."},
{"property": "C09", "status": "partial", "theorems": ["Huira.SceneGraph.C09_rotation_violated", "Huira.SceneGraph.C09_rotation_refused", "Huira.SceneGraph.C09_frame_refused", "Huira.SceneGraph.C09_manual_transform_ignored", "Huira.SceneGraph.C09_position_getters", "Huira.SceneGraph.C09_rotation_getters_partial", "Huira.SceneGraph.C09_set_get_position", "Huira.SceneGraph.C09_position_stable", "Huira.SceneGraph.C09_new_frame", "Huira.SceneGraph.C09_rate_setters", "Huira.SceneGraph.C09_source_setters"], "note": "Rotation getter guard tests the position mode (violated both ways); positions and refusals proved."},
{"property": "C10", "status": "proved", "theorems": ["Huira.World.C10_world", "Huira.World.C10_root"], "note": "Exact real arithmetic; frames above the node scaled uniformly, as the property says."},
{"property": "C11", "status": "proved", "theorems": ["Huira.Stars.C11_round_trip", "Huira.Stars.C11_layout"], "note": "Exact byte layout with an arbitrary record codec and any sort that returns a sorted permutation."},
{"property": "C12", "status": "proved", "theorems": ["Huira.Stars.C12_limited_read"], "note": ""},
{"property": "C13", "status": "partial", "theorems": ["Huira.Stars.C13_violated", "Huira.Stars.C13_phantom_stars", "Huira.Stars.C13_magic_partial", "Huira.Stars.C13_contents_partial"], "note": "Length clauses violated (short header accepted, truncated table returns stars not in the file); magic/version rejection and contents of long-enough files proved for all byte strings."},
{"property": "C14", "status": "proved", "theorems": ["Huira.Tycho.C14_unpack_pack", "Huira.Tycho.C14_injective", "Huira.Tycho.C14_sharp"], "note": ""},
{"property": "C15", "status": "partial", "theorems": ["Huira.Tycho.C15_safe_violated", "Huira.Tycho.C15_safe_partial", "Huira.Tycho.C15_safe_terminated_partial", "Huira.Tycho.C15_blank_id_violated", "Huira.Tycho.C15_local_partial", "Huira.Tycho.C15_local_complete_partial", "Huira.Tycho.C15_local_violated"], "note": "Violated: no final newline writes out of bounds, blank identifier columns convert NaN to int, proper motion leaks from dropped rows; safety and locality proved otherwise."},
{"property": "C16", "status": "proved", "theorems": ["Huira.Stars.C16_clip", "Huira.Stars.C16_compose", "Huira.Stars.C16_monotone"], "note": ""},
{"property": "C17", "status": "partial", "theorems": ["Huira.Image.C17_pixel_partial", "Huira.Image.C17_pixel_outside", "Huira.Image.C17_pixel_undefined", "Huira.Image.C17_pixel_violated", "Huira.Image.C17_pixel_violated_left", "Huira.Image.C17_pixel_conversion", "Huira.Image.C17_violated", "Huira.Image.C17_negative_reads", "Huira.Image.C17_linear_partial", "Huira.Image.C17_partial"], "note": "Violated for negative coordinates, which are not refused (C17_violated, C17_negative_reads), and for floating-point coordinates: up to one pixel left of or above the picture counts as the first column or row (C17_pixel_outside), NaN, infinities and numbers beyond int are converted with undefined results (C17_pixel_undefined). Proved: bijection, upper bounds, linear access, and the pixel a point lies in (C17_pixel_partial)."},
{"property": "C18", "status": "partial", "theorems": ["Huira.Image.C18_violated", "Huira.Image.C18_inside_partial", "Huira.Image.C18_convex_partial", "Huira.Image.C18_grid_points", "Huira.Image.C18_mirror_even"], "note": "Violated in mirror mode for |u| >= 2^31 (undefined conversion); otherwise proved for all sizes, modes, coordinates."},
{"property": "C19", "status": "partial", "theorems": ["Huira.Image.C19_fftw", "Huira.Image.C19_fft_is_convolution", "Huira.Image.C19_direct_is_correlation", "Huira.Image.C19_violated", "Huira.Image.C19_symmetric_partial"], "note": "Violated: the direct path is a correlation, the FFT path a convolution; both characterised for all sizes, agreement proved for symmetric odd kernels. FFTW enters as the contract of its documentation (C19_fftw: discrete Fourier transforms of the packed buffers give the linear convolution; the contract is met by the inverse formula, inverse2_isC2R)."},
{"property": "C20", "status": "partial", "theorems": ["Huira.FrameBuffer.C20_violated", "Huira.FrameBuffer.C20_sensor_discards_power", "Huira.FrameBuffer.C20_direct_indirect_aliased", "Huira.FrameBuffer.C20_zero_resolution", "Huira.FrameBuffer.C20_has_partial", "Huira.FrameBuffer.C20_power_group", "Huira.FrameBuffer.C20_enabled_size", "Huira.FrameBuffer.C20_enable_keeps", "Huira.FrameBuffer.C20_frame", "Huira.FrameBuffer.C20_clear"], "note": "Violated: enable_direct/indirect/power-style aliasing of channels and a 0x0 resolution; everything else proved for all histories."},
{"property": "C21", "status": "partial", "theorems": ["Huira.ImageIO.Bmp.C21_violated", "Huira.ImageIO.Bmp.C21_min_height", "Huira.ImageIO.Bmp.C21_safe_partial", "Huira.ImageIO.Bmp.C21_pixels_inside_partial"], "note": "Violated: signed overflow for huge declared dimensions; safe for every byte string whose header is moderate."},
{"property": "C22", "status": "partial", "theorems": ["Huira.ImageIO.Tga.C22_image_overflow", "Huira.ImageIO.Tga.C22_violated", "Huira.ImageIO.Tga.C22_rle_overflow", "Huira.ImageIO.Tga.C22_palette_index", "Huira.ImageIO.Tga.C22_no_palette", "Huira.ImageIO.Tga.C22_uncompressed_partial", "Huira.ImageIO.Tga.C22_rle_partial", "Huira.ImageIO.Tga.C22_mapped_partial"], "note": "Violated five ways (16-bit truecolour and over-long raw packets read past the buffer, palette index out of range, missing palette, int overflow of width*height for huge images: C22_image_overflow); the raw reader is safe for every byte string outside those cases."},
{"property": "C23", "status": "partial", "theorems": ["Huira.ImageIO.Hdr.C23_image_partial", "Huira.ImageIO.Hdr.C23_image_violated", "Huira.ImageIO.Hdr.C23_safe", "Huira.ImageIO.Hdr.C23_size", "Huira.ImageIO.Hdr.C23_header_fuel"], "note": "Raw reader: all byte strings (C23_safe, C23_size). Image: proved for machines that cannot allocate 24 GiB (C23_image_partial); violated otherwise, a file of 32768 x 65536 pixels overflows the int product of width and height (C23_image_violated)."},
{"property": "C24", "status": "proved", "theorems": ["Huira.ImageIO.Hdr.C24_roundtrip", "Huira.ImageIO.Hdr.C24_flat", "Huira.ImageIO.Hdr.C24_rgbe_zero", "Huira.ImageIO.Hdr.C24_rgbe_double", "Huira.ImageIO.Hdr.C24_rgbe_unit", "Huira.ImageIO.Hdr.C24_rgbe_proportional"], "note": ""},
{"property": "C25", "status": "partial", "theorems": ["Huira.ImageIO.Convert.C25_unsigned_partial", "Huira.ImageIO.Convert.C25_signed_nonneg_partial", "Huira.ImageIO.Convert.C25_signed_negative", "Huira.ImageIO.Convert.C25_violated", "Huira.ImageIO.Convert.C25_uint32_max", "Huira.ImageIO.Convert.C25_unsigned_defined"], "note": "Violated: every negative signed value is off by one level, uint32 maximum overflows; unsigned up to 16 bits and non-negative signed values proved for every rounding function meeting the float32 specification."},
{"property": "C26", "status": "partial", "theorems": ["Huira.ImageIO.Fits.C26_integer_partial", "Huira.ImageIO.Fits.C26_float_partial", "Huira.ImageIO.Fits.C26_bit8_partial", "Huira.ImageIO.Fits.C26_violated", "Huira.ImageIO.Fits.C26_black8", "Huira.ImageIO.Fits.C26_user_saturate"], "note": "Violated: 16-bit sensor level in BITPIX 16 without offset, 8-bit black level, user SATURATE; integer, float and 8-bit round trips proved. Exact arithmetic between header scaling and CFITSIO."},
{"property": "C27", "status": "proved", "theorems": ["Huira.ImageIO.Bmp.C27_placement", "Huira.ImageIO.Bmp.C27_accepts"], "note": "For moderate headers (those for which the size arithmetic does not overflow, see C21)."},
{"property": "C28", "status": "partial", "theorems": ["Huira.ImageIO.C28_decode_strictMono_partial", "Huira.ImageIO.C28_decode_ends_partial", "Huira.ImageIO.C28_encode_ends_partial", "Huira.ImageIO.C28_encode_drops", "Huira.ImageIO.C28_violated", "Huira.ImageIO.C28_encode_strictMono_partial", "Huira.ImageIO.C28_encode_branches_partial", "Huira.ImageIO.C28_decode_encode_partial", "Huira.ImageIO.C28_gap_error_partial", "Huira.ImageIO.C28_encode_decode_partial"], "note": "Violated at the threshold (encode decreases there); strict monotonicity and both inverses proved outside an interval of width 1e-7, error bound inside."},
{"property": "C29", "status": "proved", "theorems": ["Huira.ImageIO.C29_exact", "Huira.ImageIO.C29_extension_only", "Huira.ImageIO.C29_unknown_throws"], "note": ""},
{"property": "C30", "status": "partial", "theorems": ["Huira.Logger.C30_dump_partial", "Huira.Logger.C30_bounded_partial", "Huira.Logger.C30_only_logged_partial", "Huira.Logger.C30_violated", "Huira.Logger.C30_wrap_loses_messages"], "note": "Violated: entries with an empty message are not dumped; the 64-bit write counter wraps. Proved exact otherwise for every history of fewer than 2^64 calls."},
{"property": "C31", "status": "proved", "theorems": ["Huira.Logger.C31_nested", "Huira.Logger.C31_effect", "Huira.Logger.C31_monotone", "Huira.Logger.C31_antitone"], "note": ""},
{"property": "C32", "status": "partial", "theorems": ["Huira.Logger.C32_at_most_once_partial", "Huira.Logger.C32_single_thread_partial", "Huira.Logger.C32_race", "Huira.Logger.C32_violated"], "note": "At most one report proved for any number of threads and interleavings; exactly one violated (a second crashing thread can end the process first), proved for a single crashing thread."},
{"property": "C33", "status": "partial", "theorems": ["Huira.Volumes.C33_nested_restores_partial", "Huira.Volumes.C33_innermost_active_partial", "Huira.Volumes.C33_active_is_open_partial", "Huira.Volumes.C33_overlap", "Huira.Volumes.C33_violated", "Huira.Volumes.C33_ninth_ignored"], "note": "Violated for overlapping media and beyond 8 nested media; nested media restore the stack at any depth, innermost active up to depth 8."},
{"property": "C34", "status": "proved", "theorems": ["Huira.Volumes.C34_construct", "Huira.Volumes.C34_range", "Huira.Volumes.C34_decreasing", "Huira.Volumes.C34_segments", "Huira.Volumes.C34_shadow_ray", "Huira.Volumes.C34_shadow_ray_range"], "note": "Exact real arithmetic."},
{"property": "C35", "status": "partial", "theorems": ["Huira.Sensor.C35_range_partial", "Huira.Sensor.C35_nan_partial", "Huira.Sensor.C35_monotone_partial", "Huira.Sensor.C35_saturates_partial", "Huira.Sensor.C35_pixel_monotone_partial", "Huira.Sensor.C35_violated"], "note": "Violated only through the zero gain of C36; range, monotonicity, saturation proved for every valid configuration and non-NaN charge. Exact arithmetic with NaN/inf; bit depths above 127 (where 2^bits overflows float) not modelled."},
{"property": "C36", "status": "partial", "theorems": ["Huira.Sensor.C36_throw_unchanged_partial", "Huira.Sensor.C36_sensor_size_partial", "Huira.Sensor.C36_ranges_partial", "Huira.Sensor.C36_violated", "Huira.Sensor.C36_gain_db_reads_back_partial"], "note": "Violated: set_gain_db accepts gains that underflow to zero; proved for every other history, and that throwing setters change nothing."},
{"property": "C37", "status": "proved", "theorems": ["Huira.Camera.C37_project_of_ray", "Huira.Camera.C37_ray_of_project", "Huira.Camera.C37_unit", "Huira.Camera.C37_distorted_pixels"], "note": "Exact real arithmetic; also integer pixels of distorted cameras."},
{"property": "C38", "status": "partial", "theorems": ["Huira.Camera.C38_frustum_partial", "Huira.Camera.C38_sound_partial", "Huira.Camera.C38_project_partial", "Huira.Camera.C38_last_column_lost", "Huira.Camera.C38_violated", "Huira.Camera.C38_thin_sensor_violated"], "note": "Violated: the frustum ends at the upper-left corners of the last column/row, and has no side planes for sensors of fewer than three rows; exact characterisation proved otherwise."},
{"property": "C39", "status": "partial", "theorems": ["Huira.Camera.C39_atomic_partial", "Huira.Camera.C39_focal_length_partial", "Huira.Camera.C39_violated", "Huira.Camera.C39_intrinsics_violated", "Huira.Camera.C39_configure_violated"], "note": "Violated by set_focal_length, set_intrinsics(_matrix) and configure_sensor_*; proved for all other setters."},
{"property": "C40", "status": "partial", "theorems": ["Huira.Camera.C40_plain_partial", "Huira.Camera.C40_set_distortion_last", "Huira.Camera.C40_stale_rays", "Huira.Camera.C40_stale_principal_point", "Huira.Camera.C40_violated", "Huira.Camera.C40_blender_frustum_stale", "Huira.Camera.C40_blender_blind", "Huira.Camera.C40_delete_frustum_stale"], "note": "Violated with distortion models, convention changes and set_sensor; proved for every history of the other setters."},
{"property": "C41", "status": "partial", "theorems": ["Huira.Camera.C41_set_intrinsics", "Huira.Camera.C41_matrix_partial", "Huira.Camera.C41_violated"], "note": "Violated: the principal point is read from the transposed entries and is always (0,0); focal lengths and set_intrinsics proved."},
{"property": "C42", "status": "partial", "theorems": ["Huira.Camera.Lenses.C42_zero_identity_partial", "Huira.Camera.Lenses.C42_opencv_doubles", "Huira.Camera.Lenses.C42_violated", "Huira.Camera.Lenses.C42_opencv_undistort_violated", "Huira.Camera.Lenses.C42_brown", "Huira.Camera.Lenses.C42_owen", "Huira.Camera.Lenses.C42_opencv", "Huira.Camera.Lenses.C42_settled", "Huira.Camera.Lenses.C42_residual", "Huira.Camera.Lenses.C42_convergence", "Huira.Camera.Lenses.C42_brown_odd", "Huira.Camera.Lenses.C42_brown_spec"], "note": "Violated: zero-coefficient OpenCV model doubles coordinates and its inverse does not converge; Brown and Owen proved; settled points, residual and convergence bounds proved for every displacement field."},
{"property": "C43", "status": "proved", "theorems": ["Huira.Camera.C43_alpha_accepted_iff", "Huira.Post.C43_total_conserved", "Huira.Post.C43_nonneg", "Huira.Post.C43_pixel"], "note": "Exact real arithmetic; the sensor response that follows is C35."},
{"property": "C44", "status": "proved", "theorems": ["Huira.Camera.C44_aperture_consistent", "Huira.Camera.C44_fstop_readback", "Huira.Camera.C44_negative_fstop", "Huira.Camera.C44_focus_readback", "Huira.Camera.C44_diopters_readback"], "note": "Exact real arithmetic."},
{"property": "C45", "status": "proved", "theorems": ["Huira.Frustum.C45_covers", "Huira.Frustum.C45_sound", "Huira.Frustum.C45_exact", "Huira.Frustum.C45_size", "Huira.Frustum.C45_winding", "Huira.Frustum.C45_no_overlap", "Huira.Frustum.C45_contains"], "note": "Exact real arithmetic; clipping modelled for any list of half-spaces."},
{"property": "C46", "status": "partial", "theorems": ["Huira.ArcClip.C46_intersect", "Huira.ArcClip.C46_clip_arc_partial", "Huira.ArcClip.C46_polynomial_partial", "Huira.ArcClip.C46_violated"], "note": "Violated through missed crossings (C48): half-visible trajectories reported fully visible. Interval intersection proved exact; clipping of any number of planes proved exact given complete crossings, unconditionally for up to three samples when no solver threshold interferes."},
{"property": "C47", "status": "proved", "theorems": ["Huira.Arc.C47_passes_through", "Huira.Arc.C47_needs_sample", "Huira.Arc.C47_smooth", "Huira.Arc.C47_natural"], "note": "Exact real arithmetic."},
{"property": "C48", "status": "partial", "theorems": ["Huira.Arc.C48_polynomial_partial", "Huira.Arc.C48_spline_partial", "Huira.Arc.C48_violated", "Huira.Arc.C48_single_crossing_violated"], "note": "Violated: a segment whose cubic has one real root reports no crossing (monotone) or a wrong one (otherwise), and coefficients below 1e-10 lose roots. All other branches (linear, quadratic, three roots, repeated roots) proved exact, for any number of samples."},
{"property": "C49", "status": "partial", "theorems": ["Huira.Tiles.C49_loops_partial", "Huira.Tiles.C49_one_worker", "Huira.Tiles.C49_partition", "Huira.Tiles.C49_tiles_in_image", "Huira.Tiles.C49_written_once", "Huira.Tiles.C49_schedule_independent_partial", "Huira.Tiles.C49_no_lights_partial", "Huira.Tiles.C49_tile_order_partial", "Huira.Tiles.C49_violated_lights", "Huira.Tiles.C49_violated_blur"], "note": "Violated when the scene has a light (all lights draw from a sampler shared between tiles) or motion blur; proved schedule-independent otherwise, the tiling proved an exact partition, written once, and the step machine proved to be the nested loops over tiles, pixels and samples (C49_one_worker, C49_loops_partial)."},
{"property": "C50", "status": "partial", "theorems": ["Huira.Points.C50_stamp_partial", "Huira.Points.C50_drawn_iff", "Huira.Points.C50_violated"], "note": "Violated without a PSF: rounding can move a source out of its tile or past the last column and it is lost (C50_drawn_iff gives the exact condition); with a PSF proved for every image, source list and kernel."},
{"property": "C51", "status": "partial", "theorems": ["Huira.Points.C51_interval_sum", "Huira.Points.C51_interval_energy", "Huira.Points.C51_interval_samples", "Huira.Points.C51_density", "Huira.Points.C51_no_gaps", "Huira.Points.C51_total", "Huira.Points.C51_violated", "Huira.Points.C51_whole_exposure_partial", "Huira.Points.C51_interp_hits", "Huira.Points.C51_interp_between", "Huira.Points.C51_interp_single"], "note": "Violated: every visible interval gets the energy of the whole exposure (C51_total); proved for sources visible throughout, with energy, coverage and density of samples."},
{"property": "C52", "status": "proved", "theorems": ["Huira.Lut.C52_truncation_bound", "Huira.Lut.C52_monotone", "Huira.Lut.C52_range", "Huira.Lut.C52_tight", "Huira.Lut.C52_max_irradiance"], "note": "Exact real arithmetic."},
{"property": "C53", "status": "proved", "theorems": ["Huira.Camera.C53_bilinear", "Huira.Camera.C53_pixel_mean", "Huira.Camera.C53_lut", "Huira.Camera.C53_psf_kernel", "Huira.Camera.C53_defocus_kernel", "Huira.Camera.C53_lookup_in_range", "Huira.Camera.C53_lookup_exact"], "note": "PSF values taken as non-negative reals; at least one bank."},
{"property": "C54", "status": "partial", "theorems": ["Huira.Stats.C54_heuristic_violated", "Huira.Stats.C54_both_zero", "Huira.Stats.C54_heuristic_partial", "Huira.Stats.C54_heuristic_prefers", "Huira.Stats.C54_stops_first", "Huira.Stats.C54_statistics", "Huira.Stats.C54_parts_add", "Huira.Stats.C54_stop_rule"], "note": "Power heuristic gives 0 and 0 (or NaN) at degenerate densities; otherwise proved, with Welford statistics for any number of samples and the stopping rule in terms of variance and mean (C54_stop_rule)."},
{"property": "C55", "status": "partial", "theorems": ["Huira.Path.C55_rotation_lost", "Huira.Path.C55_violated", "Huira.Path.C55_position_partial", "Huira.Path.C55_position_between", "Huira.Path.C55_single"], "note": "Violated: with two or more keys rotation and scale are lost everywhere; positions proved."},
{"property": "C56", "status": "partial", "theorems": ["Huira.Path.C56_specular_weight_zero", "Huira.Path.C56_violated", "Huira.Path.C56_camera_ray_partial", "Huira.Path.C56_bounces", "Huira.Path.C56_surface_weights_partial"], "note": "Violated: after a specular bounce the MIS weight of a light is 0; camera ray and surface weights proved."},
{"property": "C57", "status": "proved", "theorems": ["Huira.Bsdf.C57_weight", "Huira.Bsdf.C57_valid", "Huira.Bsdf.C57_cook_valid", "Huira.Bsdf.C57_null", "Huira.Bsdf.C57_vndf_pdf"], "note": "All seven reflectance models, every parameter, direction and random number; float arithmetic is taken as exact reals. Cook-Torrance weights use the same clamped pdf as the one reported."},
{"property": "C58", "status": "partial", "theorems": ["Huira.Bsdf.C58_reciprocal", "Huira.Bsdf.C58_nonneg", "Huira.Bsdf.C58_lambertian_below", "Huira.Bsdf.C58_below", "Huira.Bsdf.C58_violated", "Huira.Bsdf.C58_oren_nayar_term"], "note": "Reciprocity and non-negativity proved for every pair of directions above the surface; violated beyond that because the Lambertian model ignores the side of the outgoing direction (C58_violated)."},
{"property": "C59", "status": "partial", "theorems": ["Huira.Bsdf.C59_vndf_unit_partial", "Huira.Sampling.C59_uniform", "Huira.Sampling.C59_cosine", "Huira.Sampling.C59_power_cosine", "Huira.Sampling.C59_ggx_partial", "Huira.Sampling.C59_sine_actual", "Huira.Sampling.C59_sine_violated", "Huira.Sampling.C59_vndf_partial"], "note": "Uniform, cosine and power-cosine sampling: full density statement (push-forward of the uniform measure equals pdf times solid angle). GGX: proved where the pdf is not clamped at 1e-8. Visible normals (C59_vndf_partial): the normals drawn have exactly the density D*G1*max(0,wo.h)/wo.z and the pdf returned is that density floored at 1e-8; missing: views grazing beyond 1e-4 (cosine squared clamped) and views so near the pole that the routine uses a fixed tangent (0 < squared horizontal length <= 1e-7), where the frame is not orthogonal. Sine hemisphere: violated (C59_sine_violated)."},
{"property": "C60", "status": "proved", "theorems": ["Huira.Sampling.C60_tangent_frame", "Huira.Sampling.C60_conversions"], "note": "Exact reals; the float cross product and normalisation are taken as exact."},
{"property": "C61", "status": "partial", "theorems": ["Huira.Units.C61_conversion_preserves", "Huira.Units.C61_round_trip", "Huira.Units.C61_chain", "Huira.Units.C61_unique", "Huira.Units.C61_compare", "Huira.Units.C61_compare_unit_independent", "Huira.Units.C61_mul_div", "Huira.Units.C61_linear_partial", "Huira.Units.C61_add_commutes", "Huira.Units.C61_factors_partial", "Huira.Units.C61_mile", "Huira.Units.C61_violated", "Huira.Units.C61_mile_per_hour_violated", "Huira.Units.C61_celsius", "Huira.Units.C61_composed", "Huira.Units.C61_spectral", "Huira.Units.C61_spectral_print_violated"], "note": "Round trips, chains, comparisons, products and quotients proved for every scale; sums/multiples for units without offset; every unit's factor except the mile. Violated for sums of Celsius/Fahrenheit temperatures (C61_violated) and for the mile (1609.34 m instead of 1609.344 m); spectral quantities print unconverted numbers beside the SI unit. double arithmetic is taken as exact."},
{"property": "C62", "status": "proved", "theorems": ["Huira.Dim.C62_exponents", "Huira.Dim.C62_convertible_iff", "Huira.Dim.C62_group", "Huira.Dim.C62_pow", "Huira.Dim.C62_derived", "Huira.Dim.C62_si_string_injective", "Huira.Dim.C62_names"], "note": "Exponents of any product/quotient expression, group laws, powers; the printed SI unit is injective on dimensions."},
{"property": "C63", "status": "proved", "theorems": ["Huira.Rot.C63_quaternion", "Huira.Rot.C63_quaternion_inverse", "Huira.Rot.C63_quaternion_export", "Huira.Rot.C63_quaternion_round_trip", "Huira.Rot.C63_euler", "Huira.Rot.C63_moved_axes", "Huira.Rot.C63_euler_refused", "Huira.Rot.C63_axis_angle", "Huira.Rot.C63_turn", "Huira.Rot.C63_rotation", "Huira.Rot.C63_group", "Huira.Rot.C63_matrix", "Huira.Rot.C63_parent_to_local"], "note": "Exact real arithmetic. The check accepts any matrix of determinant about one (e.g. a shear) and orthonormalises it; the zero quaternion gives the identity."},
{"property": "C64", "status": "partial", "theorems": ["Huira.Xform.C64_compose_iff", "Huira.Xform.C64_compose_partial", "Huira.Xform.C64_inverse_iff", "Huira.Xform.C64_inverse_partial", "Huira.Xform.C64_inverse_velocity", "Huira.Xform.C64_to_matrix", "Huira.Xform.C64_violated", "Huira.Xform.C64_violated_compose", "Huira.Xform.C64_to_embree", "Huira.Xform.C64_default", "Huira.Xform.C64_directions_velocities", "Huira.Xform.C64_angular_velocity"], "note": "Violated: composition and inverse are wrong for non-uniform scale (C64_compose_iff, C64_inverse_iff give the exact conditions), the inverse's velocity is wrong for rotating or scaled frames, to_matrix transposes; proved for uniform scale."},
{"property": "C65", "status": "partial", "theorems": ["Huira.Time.C65_constructors", "Huira.Time.C65_center", "Huira.Time.C65_count", "Huira.Time.C65_even_partial", "Huira.Time.C65_inside_partial", "Huira.Time.C65_error", "Huira.Time.C65_violated", "Huira.Time.C65_reversed"], "note": "Exact for up to 2^24+1 samples, error bound for any number; violated beyond because the count is rounded to float (C65_violated). double arithmetic is taken as exact."},
{"property": "C66", "status": "partial", "theorems": ["Huira.Spectral.C66_accepts_iff", "Huira.Spectral.C66_uniform", "Huira.Spectral.C66_edges", "Huira.Spectral.C66_init_list_partial", "Huira.Spectral.C66_init_list_violated", "Huira.Spectral.C66_from_total", "Huira.Spectral.C66_band", "Huira.Spectral.C66_band_additive", "Huira.Spectral.C66_band_whole", "Huira.Spectral.C66_reversed_band", "Huira.Spectral.C66_sums", "Huira.Spectral.C66_per_bin", "Huira.Spectral.C66_extrema", "Huira.Spectral.C66_valid", "Huira.Spectral.C66_photon_energy"], "note": "Accepted bins are exactly the well-formed ones; totals, bands, arithmetic, extrema, validity proved over exact reals. Violated: an initializer list whose length is neither 1 nor N leaves bins uninitialised (C66_init_list_violated); a reversed band is not rejected (C66_reversed_band)."},
{"property": "C67", "status": "partial", "theorems": ["Huira.Ellipsoid.C67_nearest", "Huira.Ellipsoid.C67_hit_data", "Huira.Ellipsoid.C67_bounds", "Huira.Ellipsoid.C67_frame_partial", "Huira.Ellipsoid.C67_defined_partial", "Huira.Ellipsoid.C67_violated", "Huira.Ellipsoid.C67_tiny", "Huira.Ellipsoid.C67_rejected_hits"], "note": "Nearest hit, hit data, completeness and bounds proved for every ellipsoid of positive radii and every ray (tnear=0, as the renderer calls it), over exact reals; hit frame proved away from the poles. Violated: tangent frame near the poles (C67_violated), radii below 1e-4 (C67_tiny)."},
{"property": "C68", "status": "partial", "theorems": ["Huira.Mesh.C68_accept", "Huira.Mesh.C68_surface_partial", "Huira.Mesh.C68_convex", "Huira.Mesh.C68_corners", "Huira.Mesh.C68_violated", "Huira.Mesh.C68_zero_normal", "Huira.Mesh.C68_wraps"], "note": "Accepted buffers, interpolation and convexity proved for every mesh of at most 2^32 indices; violated: indices that do not make up a whole triangle are accepted (C68_violated); index arithmetic wraps beyond 2^32 (C68_wraps)."},
{"property": "C69", "status": "partial", "theorems": ["Huira.Offset.C69_coordinate", "Huira.Offset.C69_side", "Huira.Offset.C69_secondary", "Huira.Offset.C69_not_moved", "Huira.Offset.C69_violated", "Huira.Offset.C69_overflow"], "note": "Bit-level float and double model with any round-to-nearest. Every coordinate moves along the normal, strictly when the component is at least 1/256 (1/65536 for double), by a bounded amount; the point ends strictly on the normal's side. Violated: smaller components do not move at all (C69_violated); for -0.0 the integer addition overflows (C69_overflow). The sign of the dot product choosing the side is taken as exact."},
{"property": "C70", "status": "partial", "theorems": ["Huira.World.C70_partial", "Huira.World.C70_violated", "Huira.World.C70_spec"], "note": "Violated: factors of gamma are missing, the direction is not a unit vector (7 percent short at 0.6 c); error proved at most 3 beta^3."},
{"property": "C71", "status": "proved", "theorems": ["Huira.Material.C71_history", "Huira.Material.C71_frame", "Huira.Material.C71_reset", "Huira.Material.C71_reset_all", "Huira.Material.C71_independent", "Huira.Material.C71_image_keeps_factor", "Huira.Material.C71_explicit_zero", "Huira.Material.C71_alpha_flag"], "note": "Pointers are modelled by identities; float comparison with zero is real comparison (a NaN factor is outside the model). An explicit zero factor is lost when an image follows (C71_explicit_zero), as the code intends."},
{"property": "C72", "status": "partial", "theorems": ["Huira.Volumes.C72_distribution_partial", "Huira.Volumes.C72_nonneg_partial", "Huira.Volumes.C72_vacuum_partial", "Huira.Volumes.C72_thin_ignored", "Huira.Volumes.C72_violated", "Huira.Volumes.C72_surface_unbiased_partial", "Huira.Volumes.C72_scatter_unbiased_partial"], "note": "Violated for mean extinction in (0, 1e-6] (never scatters at any distance); distribution and unbiased throughput factors proved above that."},
{"property": "C73", "status": "proved", "theorems": ["Huira.ImageIO.Tga.C73_truecolor", "Huira.ImageIO.Tga.C73_rle", "Huira.ImageIO.Tga.C73_rle_eq_raw"], "note": ""},
{"property": "C74", "status": "partial", "theorems": ["Huira.ImageIO.Hdr.C74_violated", "Huira.ImageIO.Hdr.C74_standard_partial"], "note": "Violated: the orientation line is ignored; proved for the standard orientation."},
{"property": "C75", "status": "partial", "theorems": ["Huira.Logger.C75_concurrent_partial", "Huira.Logger.C75_resize_race", "Huira.Logger.C75_stalled_writer", "Huira.Logger.C75_violated"], "note": "Violated by a resize during a call and by a call overtaken by a whole buffer of others; proved for every other interleaving."},
{"property": "C76", "status": "proved", "theorems": ["Huira.Volumes.C76_unit", "Huira.Volumes.C76_uniform"], "note": ""},
{"property": "C77", "status": "partial", "theorems": ["Huira.Camera.C77_sample_in_disc", "Huira.Camera.C77_sample_concentric", "Huira.Camera.C77_focus_partial", "Huira.Camera.C77_violated"], "note": "Violated with a distortion model (focus surface is a sphere); proved for undistorted cameras."},
{"property": "C78", "status": "partial", "theorems": ["Huira.Path.C78_double_counted", "Huira.Path.C78_violated", "Huira.Path.C78_reference_point"], "note": "Violated: light reached after a medium scatter is counted with full weight by two estimators."},
{"property": "C79", "status": "partial", "theorems": ["Huira.Stats.C79_violated_none", "Huira.Stats.C79_violated_bin", "Huira.Stats.C79_finite_partial"], "note": "Violated by NaN samples; proved for finite samples."},
{"property": "C80", "status": "proved", "theorems": ["Huira.Stats.C80_roulette_unbiased", "Huira.Stats.C80_roulette_early", "Huira.Stats.C80_clamp"], "note": "Exact real arithmetic."},
{"property": "C81", "status": "proved", "theorems": ["Huira.Light.C81_sample", "Huira.Light.C81_uniform", "Huira.Light.C81_inside", "Huira.Light.C81_pdf_support", "Huira.Light.C81_power", "Huira.Light.C81_radius", "Huira.Light.C81_power_refused", "Huira.Light.C81_far"], "note": "Exact real arithmetic."},
{"property": "C82", "status": "proved", "theorems": ["Huira.Path.C82_range", "Huira.Path.C82_equirectangular", "Huira.Path.C82_injective"], "note": "Exact real arithmetic."},
{"property": "C83", "status": "partial", "theorems": ["Huira.World.C83_spice_partial", "Huira.World.C83_position_partial", "Huira.World.C83_rotation_partial", "Huira.World.C83_violated", "Huira.World.C83_callbacks"], "note": "Violated when only one component is from SPICE: the parent's velocity is added to SPICE's, and the parent's angular velocity (with SPICE's divided by the scale); proved when both are, and for positions and orientations."},
{"property": "C84", "status": "partial", "theorems": ["Huira.World.C84_world_partial", "Huira.World.C84_body_iff", "Huira.World.C84_violated"], "note": "Violated: rates given in body axes are reported as if in parent axes (C84_body_iff); proved for rates in parent axes at any depth. Turns below 1e-12 rad since the epoch are ignored by the code and excluded."},
{"property": "C85", "status": "partial", "theorems": ["Huira.World.C85_violated", "Huira.World.C85_partial"], "note": "Violated: rotation, angular velocity and frame getters look at the source of the position."},
{"property": "C86", "status": "proved", "theorems": ["Huira.World.C86_light_time", "Huira.World.C86_aberrated_state"], "note": "Exact real arithmetic; the bound is the contraction estimate after the ten iterations the code makes."},
{"property": "C87", "status": "proved", "theorems": ["Huira.World.C87_nadir"], "note": "Exact real arithmetic; the axes are cast to float in the code. Angular velocity is reported as zero."},
{"property": "C88", "status": "proved", "theorems": ["Huira.Time.C88_julian_round_trip", "Huira.Time.C88_mjd", "Huira.Time.C88_julian_years", "Huira.Time.C88_epoch", "Huira.Time.C88_order", "Huira.Time.C88_arithmetic"], "note": "SPICE's unitim/deltet are parameters assumed to be mutually inverse (SpiceOk, with a witness). double arithmetic is taken as exact."},
{"property": "C89", "status": "partial", "theorems": ["Huira.Units.C89_construct", "Huira.Units.C89_returning_partial", "Huira.Units.C89_violated", "Huira.Units.C89_scalar_violated"], "note": "Proved for value-returning operators; violated by the assigning operators +=, -=, *=, /= (C89_violated)."},
{"property": "C90", "status": "partial", "theorems": ["Huira.Spectral.C90_partial", "Huira.Spectral.C90_violated"], "note": "Proved when the bins overlap a tenth of the red band; violated otherwise because the overlap test looks at the red bin only (C90_violated)."},
{"property": "C91", "status": "proved", "theorems": ["Huira.Spectral.C91_mean", "Huira.Spectral.C91_integrate", "Huira.Spectral.C91_asymmetry"], "note": "Exact Lebesgue interval integral of the piecewise linear curve; float/double arithmetic is taken as exact."},
{"property": "C92", "status": "proved", "theorems": ["Huira.Material.C92_declared", "Huira.Material.C92_skipping"], "note": "All seven models; textures are arbitrary functions of the texture coordinates."},
{"property": "C93", "status": "partial", "theorems": ["Huira.Bsdf.C93_cook_density_partial", "Huira.Bsdf.C93_cook_unbiased_partial", "Huira.Bsdf.C93_cook_mass_partial", "Huira.Bsdf.C93_mass_partial", "Huira.Bsdf.C93_unbiased_partial", "Huira.Bsdf.C93_density_partial", "Huira.Bsdf.C93_support"], "note": "Proved for all models: the five cosine-sampled ones without restriction, Cook-Torrance (C93_cook_density_partial, C93_cook_unbiased_partial) for unit views whose squared cosine is at least 1e-8 and that are not inside the tiny cone where the visible-normal routine uses a non-orthogonal tangent (0 < squared horizontal length of the stretched view <= 1e-7). float arithmetic is taken as exact."},
{"property": "C94", "status": "partial", "theorems": ["Huira.Material.C94_values", "Huira.Material.C94_frame", "Huira.Material.C94_defined", "Huira.Material.C94_violated_no_tangent", "Huira.Material.C94_violated", "Huira.Material.C94_new"], "note": "Proved whenever the surface has a tangent; violated for surfaces without tangents, where a zero vector is normalised (C94_violated)."},
{"property": "C95", "status": "partial", "theorems": ["Huira.Hit.C95_resolved", "Huira.Hit.C95_normal_iff", "Huira.Hit.C95_normal_partial", "Huira.Hit.C95_frame_partial", "Huira.Hit.C95_violated_scale", "Huira.Hit.C95_violated_motion", "Huira.Hit.C95_violated", "Huira.Hit.C95_no_tangent"], "note": "Unit, facing and side facts proved for every invertible transform; normality and orthonormal frame for equal scale factors (exact criterion in C95_normal_iff). Violated for unequal scale factors (C95_violated_scale), for moving instances (C95_violated_motion) and for surfaces without tangents (C95_no_tangent). Exact reals."},
{"property": "C96", "status": "partial", "theorems": ["Huira.Phot.C96_emitter", "Huira.Phot.C96_sphere_partial", "Huira.Phot.C96_sphere_violated", "Huira.Phot.C96_sphere_phase", "Huira.Phot.C96_sphere_unclamped", "Huira.Phot.C96_asteroid_violated", "Huira.Phot.C96_asteroid_partial", "Huira.Phot.C96_asteroid_inverse_square", "Huira.Phot.C96_asteroid_geometry"], "note": "Emitter proved. Sphere: phase law, inverse square and proportionality proved; violated: it reflects three eighths of what it should (C96_sphere_violated) and throws when the rounded cosine exceeds one (C96_sphere_unclamped). Asteroid: geometry, phase law and inverse squares proved; violated: distances are multiplied by the astronomical unit, over 220 magnitudes too faint (C96_asteroid_violated). Exact reals; the light's own irradiance is an input."},
{"property": "C97", "status": "partial", "theorems": ["Huira.Phot.C97_trapezoid", "Huira.Phot.C97_linspace", "Huira.Phot.C97_black_body", "Huira.Phot.C97_magnitude", "Huira.Phot.C97_star_partial", "Huira.Phot.C97_star_brightness", "Huira.Phot.C97_violated"], "note": "Proved for every magnitude, bins and for colours BT-VT > -0.793; violated beyond, where the temperature is negative (C97_violated). The trapezoid sums are modelled exactly as coded; exact reals."},
{"property": "C98", "status": "partial", "theorems": ["Huira.Phot.C98_direction", "Huira.Phot.C98_proper_motion", "Huira.Phot.C98_speed", "Huira.Phot.C98_epoch_partial", "Huira.Phot.C98_epoch_violated"], "note": "Unit vector, catalogue position at J2000 and proper motion proved for all inputs off the poles; epoch normalisation is exact without motion in declination, with the exact error given otherwise (C98_epoch_partial), so the full statement is violated (C98_epoch_violated)."},
{"property": "C99", "status": "partial", "theorems": ["Huira.Collect.C99_geometry", "Huira.Collect.C99_lights", "Huira.Collect.C99_unresolved", "Huira.Collect.C99_resolve", "Huira.Collect.C99_hits_violated", "Huira.Collect.C99_irradiance_partial", "Huira.Collect.C99_irradiance_violated", "Huira.Collect.C99_illumination_partial", "Huira.Collect.C99_illumination_violated"], "note": "Proved for every finite graph, any transform product and any distinct Embree identifiers. Violated: resolving a hit on a sphere light (C99_hits_violated), irradiance of an object instanced twice (C99_irradiance_violated), light instanced twice (C99_illumination_violated). Embree's tracing is outside the model."},
{"property": "C100", "status": "partial", "theorems": ["Huira.Bsdf.C100_lambertian", "Huira.Bsdf.C100_lommel_seeliger", "Huira.Bsdf.C100_hapke_value", "Huira.Bsdf.C100_cook_value", "Huira.Bsdf.C100_oren_nayar", "Huira.Bsdf.C100_oren_nayar_partial", "Huira.Bsdf.C100_oren_nayar_value", "Huira.Bsdf.C100_mcewen", "Huira.Bsdf.C100_violated"], "note": "Lambertian: exactly the albedo; Lommel-Seeliger: exact value, at most half the albedo; McEwen: at most 95 % of the albedo; Oren-Nayar: at most albedo (A + B sin/2), so conserved for roughness 0 or at least 0.21 - each for every frame and direction. Violated by Oren-Nayar at roughness 0.05, Hapke with albedo 1 (3/2 log 2 at normal incidence) and Cook-Torrance (at least 1.01): C100_violated. Exact reals."},
{"property": "C101", "status": "proved", "theorems": ["Huira.Bsdf.C101_monotone", "Huira.Bsdf.C101_smooth_oren_nayar", "Huira.Bsdf.C101_mcewen_mixture", "Huira.Bsdf.C101_mcewen_zero_phase", "Huira.Bsdf.C101_hapke", "Huira.Bsdf.C101_hapke_surge", "Huira.Bsdf.C101_hapke_no_surge", "Huira.Bsdf.C101_metal", "Huira.Bsdf.C101_cook_clamped", "Huira.Bsdf.C101_ggx_normalised"], "note": "For every model, parameters and directions; exact reals."},
{"property": "C102", "status": "partial", "theorems": ["Huira.Orbit.C102_actual", "Huira.Orbit.C102_circular_partial", "Huira.Orbit.C102_dynamics_partial", "Huira.Orbit.C102_eccentric", "Huira.Orbit.C102_violated"], "note": "CSPICE conics_c is a parameter with its documented contract (first element is the perifocal distance). Violated for every eccentric orbit (C102_violated, C102_eccentric): the callback passes the semi-major axis as perifocal distance, so the node moves on the ellipse with semi-major axis a/(1-e) (C102_actual). Proved for circular orbits (C102_circular_partial) and, for every e < 1, velocity = rate of position, Newton's law, period of the actual ellipse (C102_dynamics_partial)."},
{"property": "C103", "status": "partial", "theorems": ["Huira.ColorMap.C103_depth_partial", "Huira.ColorMap.C103_flat", "Huira.ColorMap.C103_violated", "Huira.ColorMap.C103_normals"], "note": "Violated when all object pixels have the same depth: they become NaN (C103_flat, C103_violated). Proved for images with two different depths (C103_depth_partial) and for normals (C103_normals)."},
{"property": "C104", "status": "partial", "theorems": ["Huira.ImageIO.Png.C104_read_partial", "Huira.ImageIO.Png.C104_read_mono_partial", "Huira.ImageIO.Png.C104_roundtrip_partial", "Huira.ImageIO.Png.C104_exact_partial", "Huira.ImageIO.Png.C104_write_refuses", "Huira.ImageIO.Png.C104_safe_partial", "Huira.ImageIO.Png.C104_mono_partial", "Huira.ImageIO.Png.C104_truncated", "Huira.ImageIO.Png.C104_overflow", "Huira.ImageIO.Png.C104_nan", "Huira.ImageIO.Png.C104_hint_lost", "Huira.ImageIO.Png.C104_depth_lost", "Huira.ImageIO.Png.C104_violated", "Huira.ImageIO.Png.C104_violated_read", "Huira.ImageIO.Png.C104_violated_hint"], "note": "libpng is a parameter: a parsed file delivers the samples its documentation promises after the transformations requested, and reads back what it wrote. Reading proved for every valid complete file below 2^31 pixels (C104_read_partial, C104_read_mono_partial); round trip proved for images without NaN and hints sRGB/linear/other gamma (C104_roundtrip_partial, C104_exact_partial, C104_mono_partial). Violated: a file whose rows end early makes libpng jump over live vectors (C104_truncated, C104_violated_read), 2^31 pixels overflow int (C104_overflow), a NaN component is converted to an integer (C104_nan, C104_violated), the Unknown hint and gammas near 1 and 2.2 are not kept (C104_hint_lost, C104_violated_hint), and the 16-bit depth is not reported after reading (C104_depth_lost)."},
{"property": "C105", "status": "partial", "theorems": ["Huira.ImageIO.Tiff.C105_violated", "Huira.ImageIO.Tiff.C105_violated_read", "Huira.ImageIO.Tiff.C105_violated_tile", "Huira.ImageIO.Tiff.C105_violated_alpha", "Huira.ImageIO.Tiff.C105_read_partial", "Huira.ImageIO.Tiff.C105_read_mono_partial", "Huira.ImageIO.Tiff.C105_palette_partial", "Huira.ImageIO.Tiff.C105_refuses", "Huira.ImageIO.Tiff.C105_channels", "Huira.ImageIO.Tiff.C105_strip_checked", "Huira.ImageIO.Tiff.C105_tile_unchecked", "Huira.ImageIO.Tiff.C105_ycbcr_oob", "Huira.ImageIO.Tiff.C105_photometric", "Huira.ImageIO.Tiff.C105_alpha_misplaced", "Huira.ImageIO.Tiff.C105_overflow", "Huira.ImageIO.Tiff.C105_roundtrip_partial", "Huira.ImageIO.Tiff.C105_roundtrip_mono_partial", "Huira.ImageIO.Tiff.C105_exact_partial", "Huira.ImageIO.Tiff.C105_write_refuses", "Huira.ImageIO.Tiff.C105_metadata_lost", "Huira.ImageIO.Tiff.C105_nan", "Huira.ImageIO.Tiff.C105_wide"], "note": "libtiff is a parameter with its documented buffer layout. Proved for grey/RGB(+alpha) files whose sizes fit int (C105_read_partial, C105_read_mono_partial, C105_palette_partial), refusals (C105_refuses, C105_channels, C105_strip_checked, C105_write_refuses), round trip (C105_roundtrip_partial, C105_roundtrip_mono_partial, C105_exact_partial). Violated: damaged tiles are returned as black (C105_tile_unchecked), subsampled YCbCr reads past the row buffer (C105_ycbcr_oob), photometric interpretation and extra samples are ignored (C105_photometric, C105_alpha_misplaced), int overflow (C105_overflow), NaN and very wide images when writing (C105_nan, C105_wide), alpha and metadata lost (C105_metadata_lost)."},
{"property": "C106", "status": "partial", "theorems": ["Huira.ImageIO.Jpeg.C106_read_partial", "Huira.ImageIO.Jpeg.C106_read_mono_partial", "Huira.ImageIO.Jpeg.C106_safe_partial", "Huira.ImageIO.Jpeg.C106_overflow", "Huira.ImageIO.Jpeg.C106_write_refuses", "Huira.ImageIO.Jpeg.C106_roundtrip_partial", "Huira.ImageIO.Jpeg.C106_nan", "Huira.ImageIO.Jpeg.C106_violated"], "note": "TurboJPEG is a parameter with its documented contract; compression error is a parameter epsilon. Proved below 2^31 bytes of RGB and without NaN (C106_read_partial, C106_read_mono_partial, C106_roundtrip_partial, C106_safe_partial). Violated: larger images overflow the int buffer size (C106_overflow, C106_violated), a NaN component is converted to an integer (C106_nan)."},
{"property": "C107", "status": "proved", "theorems": ["Huira.ImageIO.TiffMem.C107_stream", "Huira.ImageIO.TiffMem.C107_sequential"], "note": "For every buffer shorter than 2^63 bytes and every history of calls whose arguments fit their C types, including negative sizes and wrapped offsets."},
{"property": "C108", "status": "partial", "theorems": ["Huira.Loader.C108_node_partial", "Huira.Loader.C108_refused", "Huira.Loader.C108_node_iff", "Huira.Loader.C108_shear", "Huira.Loader.C108_model_partial", "Huira.Loader.C108_dangling", "Huira.Loader.C108_violated"], "note": "Assimp is a parameter: its parsed node tree is the input. Proved for trees whose matrices are rotation, positive scale and translation, with uniform scale on inner nodes (C108_node_partial, C108_model_partial); C108_node_iff shows a single node is placed right exactly in that case. Violated: mirrored, flat and tiny nodes make the load throw (C108_refused, C108_violated), slightly sheared nodes are accepted and moved (C108_shear); a dangling mesh index throws below the root and is skipped at the root (C108_dangling)."},
{"property": "C109", "status": "partial", "theorems": ["Huira.Loader.C109_mesh", "Huira.Loader.C109_bad_index", "Huira.Loader.C109_no_material", "Huira.Loader.C109_violated"], "note": "Assimp's parsed mesh is the input; float narrowing is identity (reals). Proved for every mesh naming an existing material (C109_mesh) and refusals (C109_bad_index). Violated: a mesh with no material is announced as using the default but the load throws (C109_no_material, C109_violated)."},
{"property": "C110", "status": "partial", "theorems": ["Huira.Loader.C110_materials_partial", "Huira.Loader.C110_keeps", "Huira.Loader.C110_embedded", "Huira.Loader.C110_one_picture", "Huira.Loader.C110_order", "Huira.Loader.C110_violated", "Huira.Loader.C110_emission", "Huira.Loader.C110_format"], "note": "Assimp, the file system and the image readers are parameters. Proved for files in which no picture has two roles, roughness and metalness are one picture, and embedded or emissive pictures are not marked sRGB (C110_materials_partial); textures in the scene are kept and formats recognised for every file (C110_keeps, C110_format). Violated: a material depends on earlier ones through the cache (C110_order, C110_violated), embedded sRGB base colours and all emissive pictures are not linearised (C110_embedded, C110_emission), a separate metalness picture is ignored or also used as roughness (C110_one_picture)."},
{"property": "C111", "status": "partial", "theorems": ["Huira.Loader.C111_early_partial", "Huira.Loader.C111_leftover", "Huira.Loader.C111_load_partial", "Huira.Loader.C111_violated"], "note": "Proved: success adds exactly the parts of the file (C111_load_partial, end to end with C108-C110); a missing or refused file adds nothing (C111_early_partial). Violated: every later failure leaves the model, the reflectance model and all materials behind (C111_leftover, C111_violated)."},
{"property": "C112", "status": "partial", "theorems": ["Huira.Cli.C112_success_partial", "Huira.Cli.C112_force_partial", "Huira.Cli.C112_exit", "Huira.Cli.C112_idempotent", "Huira.Cli.C112_history_partial", "Huira.Cli.C112_crash_confined_partial", "Huira.Cli.C112_bystanders", "Huira.Cli.C112_crash_violated", "Huira.Cli.C112_device_violated", "Huira.Cli.C112_refresh_violated"], "note": "Proved on a device with room: exit 0 leaves every needed file complete (C112_success_partial), any history of uninterrupted runs keeps every file absent or complete (C112_history_partial), --force heals anything (C112_force_partial), a crash damages at most one file (C112_crash_confined_partial), exit codes, idempotence and bystanders without conditions on the device. Violated: a file cut short by a crash is skipped as already there (C112_crash_violated); the result of close is ignored, so the last held bytes can be lost with exit 0 (C112_device_violated); a failed --force run deletes good files (C112_refresh_violated)."},
{"property": "C113", "status": "partial", "theorems": ["Huira.Cli.C113_success_partial", "Huira.Cli.C113_exit", "Huira.Cli.C113_crash_partial", "Huira.Cli.C113_end_to_end_partial", "Huira.Cli.C113_device_violated", "Huira.Cli.C113_old_violated"], "note": "Proved on a device with room: contents, clean-up, refusals, no star lost at any crash point (C113_crash_partial) and end to end from server to read_star_data (C113_end_to_end_partial, with C11). Violated: the output stream is never checked, so on a full device exit 0 with --clean deletes the sources and leaves a truncated catalogue (C113_device_violated); an older catalogue is emptied before the new one is written (C113_old_violated). The two text parsers are parameters (see C15)."},
{"property": "C114", "status": "proved", "theorems": ["Huira.CliDispatch.C114_run", "Huira.CliDispatch.C114_other", "Huira.CliDispatch.C114_registry"], "note": "Help text and TCLAP parsing of the commands' own options are outside the model."},
{"property": "C115", "status": "partial", "theorems": ["Huira.CliDispatch.C115_effect", "Huira.CliDispatch.C115_file_partial", "Huira.CliDispatch.C115_dir_partial", "Huira.CliDispatch.C115_idempotent", "Huira.CliDispatch.C115_file_violated", "Huira.CliDispatch.C115_dir_violated"], "note": "Proved: exact effect, failure condition, idempotence, file names with an extension, directory names without. Violated for the rest: a file name without an extension becomes a directory and then cannot be opened (C115_file_violated); a directory name with a dot is not created (C115_dir_violated). Links, permissions and roots are not modelled."},
{"property": "C116", "status": "partial", "theorems": ["Huira.Transport.C116_mean_partial", "Huira.Transport.C116_bounds_partial", "Huira.Transport.C116_limit_partial", "Huira.Transport.C116_violated"], "note": "Proved for scenes of surfaces, layers, lights and background (finite sets of directions, exact reals, no media, no transmission, no mirrors, no clamping, lights not hiding one another): the exact mean for every number of bounces (C116_mean_partial), two-sided bounds (C116_bounds_partial) and convergence (C116_limit_partial). Violated as stated: the light sample at the last vertex carries the weight for two techniques although the loop ends, so no path length explains the mean (C116_violated)."},
{"property": "C117", "status": "partial", "theorems": ["Huira.Transport.C117_direct_partial", "Huira.Transport.C117_violated"], "note": "Proved: the exact mean of the direct picture and that both add up (C117_direct_partial). Violated: lamp light found by direction sampling after the first reflection is booked as indirect, for every number of bounces (C117_violated). Conditions as for C116."},
{"property": "C118", "status": "partial", "theorems": ["Huira.PyBind.C118_vector_partial", "Huira.PyBind.C118_refused_partial", "Huira.PyBind.C118_matrix_partial", "Huira.PyBind.C118_roundtrip_partial", "Huira.PyBind.C118_violated"], "note": "Proved: arrays handed over in row-major order, or contiguous ones, arrive element by element (C118_vector_partial, C118_matrix_partial), wrong shapes are refused (C118_refused_partial), arrays returned by the library come back unchanged (C118_roundtrip_partial). Violated: the parameter type without the c_style flag ignores strides, so a reversed array is read outside of its memory and a column of a matrix arrives as its row (C118_violated)."},
{"property": "C119", "status": "partial", "theorems": ["Huira.PyBind.C119_from_partial", "Huira.PyBind.C119_refused_partial", "Huira.PyBind.C119_view_partial", "Huira.PyBind.C119_distinct_partial", "Huira.PyBind.C119_roundtrip_partial", "Huira.PyBind.C119_violated"], "note": "Proved for arrays whose height, width and product fit: construction (C119_from_partial), refusal of other shapes (C119_refused_partial), the view (C119_view_partial, C119_distinct_partial) and the round trip (C119_roundtrip_partial). Violated: sizes are computed with int: 65536 x 65536 pixels are written beyond an empty storage and a height of 4294967298 becomes 2 (C119_violated)."},
{"property": "C120", "status": "partial", "theorems": ["Huira.PyViews.C120_alive_partial", "Huira.PyViews.C120_disjoint_partial", "Huira.PyViews.C120_no_leak_partial", "Huira.PyViews.C120_undisturbed_partial", "Huira.PyViews.C120_quiet_partial", "Huira.PyViews.C120_enable_again_partial", "Huira.PyViews.C120_violated"], "note": "Proved for every script: a held view's storage is alive exactly when its image still uses it, whatever was dropped (C120_alive_partial); only assigning to the bundle, switching the channel and rendering (received power) can take it away, and only from views of that very image (C120_undisturbed_partial, C120_quiet_partial, C120_enable_again_partial); images never share storage (C120_disjoint_partial); nothing leaks (C120_no_leak_partial). Violated: those three statements leave dangling views (C120_violated). Reference counting and keep-alive of pybind11 and numpy are contracts; concurrent rendering is not modelled."},
{"property": "C121", "status": "partial", "theorems": ["Huira.PyUnits.C121_argument_partial", "Huira.PyUnits.C121_same_as_cpp_partial", "Huira.PyUnits.C121_refused_partial", "Huira.PyUnits.C121_sum_partial", "Huira.PyUnits.C121_iadd_partial", "Huira.PyUnits.C121_scale_partial", "Huira.PyUnits.C121_compare_partial", "Huira.PyUnits.C121_direct_partial", "Huira.PyUnits.C121_time_partial", "Huira.PyUnits.C121_classes_partial", "Huira.PyUnits.C121_dimension_violated", "Huira.PyUnits.C121_implicit_violated", "Huira.PyUnits.C121_celsius_violated", "Huira.PyUnits.C121_violated"], "note": "Proved: parameters taken through to_si get the same physical quantity, as in C++ (C121_argument_partial, C121_same_as_cpp_partial), sums, differences, scaling, comparisons and times are right (C121_sum_partial, C121_iadd_partial, C121_scale_partial, C121_compare_partial, C121_time_partial), directly bound parameters never misread (C121_direct_partial), other objects are refused (C121_refused_partial), every unit is its own class (C121_classes_partial). Violated: no operator looks at the dimension (C121_dimension_violated), the registered implicit conversions never succeed (C121_implicit_violated), + and += differ for Celsius (C121_celsius_violated). Real numbers; units with the right factor (C61)."},
{"property": "C122", "status": "partial", "theorems": ["Huira.SpiceIf.C122_state", "Huira.SpiceIf.C122_orientation", "Huira.SpiceIf.C122_rate_partial", "Huira.SpiceIf.C122_speed_partial", "Huira.SpiceIf.C122_violated"], "note": "CSPICE is a parameter (its frames are rotations that vary differentiably, its state matrices are as documented). Proved: states (C122_state), orientations (C122_orientation), the spin up to one rotation too many (C122_rate_partial) and its size (C122_speed_partial). Violated: the angular velocity of xf2rav, already in parent components, is rotated from local to parent once more, so a body spinning about the parent's x axis is reported to spin about y (C122_violated)."},
{"property": "C123", "status": "proved", "theorems": ["Huira.SpiceSess.C123_contained", "Huira.SpiceSess.C123_furnsh", "Huira.SpiceSess.C123_relative", "Huira.SpiceSess.C123_own_leap_seconds", "Huira.SpiceSess.C123_default"], "note": "CSPICE's error handling, kernel pool and meta-kernels, std::call_once and the current directory are contracts stated in Core/SpiceSession; the file system does not change; one thread (see C124). furnsh_relative_to_file is covered with a directory part."},
{"property": "C124", "status": "partial", "theorems": ["Huira.SpiceThr.C124_violated", "Huira.SpiceThr.C124_violated_others", "Huira.SpiceThr.C124_no_failure_partial", "Huira.SpiceThr.C124_serial_partial"], "note": "Proved: every schedule when no routine fails (C124_no_failure_partial); calls that do not overlap, with failures (C124_serial_partial). Violated: nothing locks the error status of CSPICE; a failing call can return a value nothing computed, a good call can throw another call's error (C124_violated, C124_violated_others). Steps are atomic, so the model is kinder than the code."},
{"property": "C125", "status": "proved", "theorems": ["Huira.StarSess.C125_memory", "Huira.StarSess.C125_dynamic", "Huira.StarSess.C125_static", "Huira.StarSess.C125_set", "Huira.StarSess.C125_failed", "Huira.StarSess.C125_outcome"], "note": "Contracts: reading the catalogue, converting the time, the order of parallel_for. Times are not NaN. Proper motion is the linear model of C89's area; here what is proved is which stars are shown, for which time, after every history of calls."},
{"property": "C126", "status": "partial", "theorems": ["Huira.Volumes.C126_mean", "Huira.Volumes.C126_range", "Huira.Volumes.C126_blocked", "Huira.Volumes.C126_agree_iff", "Huira.Volumes.C126_violated", "Huira.Volumes.C126_cloud_violated", "Huira.Volumes.C126_pane_violated"], "note": "Proved: mean (C126_mean), range (C126_range), blocking (C126_blocked), and exactly when shadow rays and paths agree (C126_agree_iff). Violated: shadow rays use the opacity only, while paths multiply by the transmission of the BSDF, so a transmissive pane (C126_pane_violated) and the boundary of a cloud with the default transmission (C126_cloud_violated) dim the two differently."},
{"property": "C127", "status": "partial", "theorems": ["Huira.AssetGraph.C127_set_all", "Huira.AssetGraph.C127_find", "Huira.AssetGraph.C127_instances", "Huira.AssetGraph.C127_crash_iff", "Huira.AssetGraph.C127_careful_partial", "Huira.AssetGraph.C127_violated", "Huira.AssetGraph.C127_delete_geometry"], "note": "Proved for every reachable scene: set_all_bsdfs (C127_set_all), lookup (C127_find), instances of the scene graph exist (C127_instances), exactly when a destroyed object is read (C127_crash_iff), programs that never delete a primitive of a living model (C127_careful_partial), deleting a mesh deletes exactly the primitives that use it (C127_delete_geometry). Violated: delete_primitive looks for instances in the scene graph only, so a primitive of a model in the scene can be deleted and the next render reads it (C127_violated)."},
{"property": "C128", "status": "partial", "theorems": ["Huira.Camera.C128_solid_angle", "Huira.Camera.C128_sum", "Huira.Camera.C128_power_partial", "Huira.Camera.C128_violated"], "note": "Solid angle is Huira.Sampling.sphereAll (surface measure of the sphere). Proved for lenses without distortion: the solid angle of a pixel is exactly that of the directions projecting into it (C128_solid_angle), the pixels add up to the field of view (C128_sum), the power lies between the extreme cosines over the pixel (C128_power_partial). Violated: the cosine is taken at one corner of the pixel (C128_violated). Not covered: lenses with distortion, where the code replaces the curved pixel by a straight-edged one; rounding."},
{"property": "C129", "status": "partial", "theorems": ["Huira.ImageIO.FitsHeader.C129_comments", "Huira.ImageIO.FitsHeader.C129_grows", "Huira.ImageIO.FitsHeader.C129_violated", "Huira.ImageIO.FitsHeader.C129_violated_double", "Huira.ImageIO.FitsHeader.C129_violated_wcs", "Huira.ImageIO.FitsHeader.C129_structural", "Huira.ImageIO.FitsHeader.C129_violated_structural", "Huira.ImageIO.FitsHeader.C129_read", "Huira.ImageIO.FitsHeader.C129_double", "Huira.ImageIO.FitsHeader.C129_double_error", "Huira.ImageIO.FitsHeader.C129_partial"], "note": "CFITSIO is a contract (cards of 80 columns, printing with 10 and 6 digits, update or append, cutting of commentary) stated in ImageIO/FitsHeader. Proved for all metadata with sensible custom names: exactly what comes back (C129_read), unchanged apart from comments when numbers have few figures and a coordinate system is whole (C129_partial), numbers (C129_double, C129_double_error), layout keywords (C129_structural). Violated: CFITSIO's own two comments are read as the user's (C129_violated, C129_comments) and accumulate with every generation (C129_grows); numbers of more than eleven figures are cut (C129_violated_double: a Julian date loses seconds); parts of a coordinate system without axis 1 are dropped (C129_violated_wcs); a custom keyword can replace NAXIS1 (C129_violated_structural)."},
{"property": "C130", "status": "proved", "theorems": ["Huira.Airy.C130_bessel", "Huira.Airy.C130_airy", "Huira.Airy.C130_peak", "Huira.Airy.C130_round", "Huira.Airy.C130_dark_ring"], "note": "The specification is the Fraunhofer integral over the hole (fraunhofer in Camera/Bessel); Airy's formula is proved from it. Exact real arithmetic: rounding of floats and doubles is not modelled. Error of J1 at most 5e-8 for all arguments (C130_bessel), of the pattern at most 3e-8 (C130_airy), centre (C130_peak), symmetry (C130_round), first dark ring between 1.2196 and 1.2198 (C130_dark_ring). The cutting into kernels is C52 and C53."},
{"property": "C131", "status": "partial", "theorems": ["Huira.NormalMap.C131_texture_partial", "Huira.NormalMap.C131_texel_partial", "Huira.NormalMap.C131_defined_partial", "Huira.NormalMap.C131_flat_partial", "Huira.NormalMap.C131_off_partial", "Huira.NormalMap.C131_grey", "Huira.NormalMap.C131_violated", "Huira.NormalMap.C131_violated_opposite", "Huira.NormalMap.C131_byte"], "note": "Proved for pictures whose colours around the point have more than one half of blue, the tangent space normal maps: direction and factor (C131_texture_partial, C131_texel_partial), a normal for every size and coordinate on the outer side with an orthonormal frame (C131_defined_partial), flat pictures (C131_flat_partial), factor zero (C131_off_partial). Violated for other pictures: a mid-grey pixel is normalised to NaN, which spreads to all points between it and its neighbours, and to the centres of neighbours where its weight is zero (C131_grey, C131_violated); opposite normals meet in NaN (C131_violated_opposite). No colour of eight bits per channel is flat (C131_byte). Exact reals."},
{"property": "C132", "status": "proved", "theorems": ["Huira.SceneGraph.C132_created", "Huira.SceneGraph.C132_root", "Huira.SceneGraph.C132_climb"], "note": "On the scene graph of SceneGraph/Model (nodes inside loaded models are not reachable by handles). C132_created, C132_root, C132_climb."},
{"property": "C133", "status": "partial", "theorems": ["Huira.SceneGraph.C133_layout", "Huira.SceneGraph.C133_read_back_partial", "Huira.SceneGraph.C133_violated", "Huira.SceneGraph.C133_violated_spice", "Huira.SceneGraph.C133_violated_names", "Huira.SceneGraph.C133_spice_partial"], "note": "Layout proved for every reachable scene (C133_layout). With names and SPICE strings free of line breaks the text determines the tree, the kinds, the assets other than primitives, and the printed SPICE text of the frames (C133_read_back_partial, C133_spice_partial). Violated: an instance of a primitive does not show which one (C133_violated), a lone SPICE origin and a lone SPICE frame look the same (C133_violated_spice), line breaks in names draw nodes that do not exist (C133_violated_names). Colours are off (standard error is not a terminal)."},
{"property": "C134", "status": "partial", "theorems": ["Huira.Aov.C134_last_leg", "Huira.Aov.C134_opaque_partial", "Huira.Aov.C134_not_behind_partial", "Huira.Aov.C134_violated", "Huira.Aov.C134_lights", "Huira.Aov.C134_forward"], "note": "Exact if the first surface every camera ray meets is opaque (C134_opaque_partial). In general the depth is the length of the last leg, measured from the last surface that was passed (C134_last_leg), so it never lies behind the true one and is infinite for exactly the right pixels (C134_not_behind_partial). Violated: behind a transparent window (C134_violated); the disc of a light has no depth (C134_lights).."},
{"property": "C135", "status": "partial", "theorems": ["Huira.Aov.C135_channels", "Huira.Aov.C135_flat_partial", "Huira.Aov.C135_background", "Huira.Aov.C135_albedo_partial", "Huira.Aov.C135_albedo_violated", "Huira.Aov.C135_world_iff", "Huira.Aov.C135_world_violated", "Huira.Aov.C135_ids", "Huira.Aov.C135_ids_violated"], "note": "All channels characterised (C135_channels, C135_background, C135_ids); normals of flat pixels and albedo without NaN samples are right (C135_flat_partial, C135_albedo_partial). Violated: world normals are turned by the inverse of the camera pose (C135_world_violated, exactly right iff the pose is an involution, C135_world_iff), dropped NaN samples still add their albedo (C135_albedo_violated), every body has id 0 (C135_ids_violated), background normals are NaN (C135_background)."},
{"property": "C136", "status": "partial", "theorems": ["Huira.Aov.C136_partial", "Huira.Aov.C136_stars_partial", "Huira.Aov.C136_lights", "Huira.Aov.C136_edges", "Huira.Aov.C136_violated"], "note": "Exact with the depth channel, strictly inside the picture, for sources behind everything in their pixel (C136_partial), and for the whole picture of stars drawn with a kernel (C136_stars_partial). Violated: without the channel bodies hide nothing, with it they hide sources in front of them, and the bottom edge is read outside the image (C136_violated, C136_edges); discs of lights hide nothing (C136_lights)."},
{"property": "C137", "status": "partial", "theorems": ["Huira.Volumes.C137_finite_partial", "Huira.Volumes.C137_background_iff", "Huira.Volumes.C137_closed_partial", "Huira.Volumes.C137_sheet_lost", "Huira.Volumes.C137_violated", "Huira.Volumes.C137_pixel_lost", "Huira.Volumes.C137_thin_lost", "Huira.Volumes.C137_thick_scattered"], "note": "Exact for everything at a finite distance (C137_finite_partial) and for closed, properly nested bodies in front of anything (C137_closed_partial); for the background exactly if no medium stays on the stack (C137_background_iff). Violated: a single open sheet in front of the background makes every sample NaN (C137_sheet_lost, C137_violated) and a pixel all of whose samples pass it NaN (C137_pixel_lost); the same for any thin medium (C137_thin_lost)."},
{"property": "C138", "status": "proved", "theorems": ["Huira.Phot.C138_planck", "Huira.Phot.C138_limit", "Huira.Phot.C138_one_step", "Huira.Phot.C138_displacement", "Huira.Phot.C138_peak", "Huira.Phot.C138_stefan_boltzmann", "Huira.Phot.C138_sigma", "Huira.Phot.C138_bins", "Huira.Phot.C138_adjacent", "Huira.Phot.C138_sun", "Huira.Phot.C138_solar_constant"], "note": "Real arithmetic. The error constant is the maximum of the second derivative over the bin (C138_planck); the sun's irradiance is bounded for exactly integrated bins (C138_sun, C138_solar_constant). With one step black_body returns 0 (C138_one_step); zero steps are outside the model."},
{"property": "C139", "status": "partial", "theorems": ["Huira.Frame.C139_power", "Huira.Frame.C139_superposition", "Huira.Frame.C139_sensor", "Huira.Frame.C139_no_residue", "Huira.Frame.C139_start", "Huira.Frame.C139_scatter_ignored", "Huira.Frame.C139_refused_iff", "Huira.Frame.C139_undefined_iff_partial", "Huira.Frame.C139_violated_channels", "Huira.Frame.C139_violated_psf", "Huira.Frame.C139_violated", "Huira.Frame.C139_blank_sensor", "Huira.Frame.C139_pictures"], "note": "Violated: received power enabled without the sensor response makes the readout write outside a picture (C139_violated_channels); convolution switched on without a PSF reads a null pointer (C139_violated_psf). C139_undefined_iff_partial says these are the only cases. The scatter settings have no effect on any picture (C139_scatter_ignored); switching received power off leaves a blank sensor response (C139_blank_sensor)."},
{"property": "C140", "status": "partial", "theorems": ["Huira.Place.C140_surface", "Huira.Place.C140_plain_iff_partial", "Huira.Place.C140_violated", "Huira.Place.C140_shift", "Huira.Place.C140_psf_partial", "Huira.Place.C140_defocus_partial", "Huira.Place.C140_steps"], "note": "Violated: surfaces treat pixel X as the interval from X to X+1, sources as the point X, so a star at the centre of a pixel is drawn in the next one (C140_violated) and blurred stars are displaced by half a pixel, less at most one sub-pixel step, right and down (C140_shift). Proved: exactly when a source lands in its pixel, and the exact point around which PSF and defocus pictures are drawn. Pinhole cameras."},
{"property": "C141", "status": "partial", "theorems": ["Huira.PyDate.C141_utc", "Huira.PyDate.C141_zone_partial", "Huira.PyDate.C141_back", "Huira.PyDate.C141_round_trip_partial", "Huira.PyDate.C141_settles", "Huira.PyDate.C141_picture", "Huira.PyDate.C141_violated_micro", "Huira.PyDate.C141_violated"], "note": "Violated: microseconds are rounded to milliseconds on the way back (C141_violated_micro); a time inside a leap second cannot be converted (C141_back). Offsets other than zero are not applied but sent to SPICE as text, so that part holds exactly when SPICE reads such texts right or refuses them (C141_zone_partial). Proved in full: naive and UTC objects, whole milliseconds, the nearest millisecond otherwise. Trusted: Python's isoformat and fromisoformat, SPICE reading plain UTC texts and printing the nearest millisecond."},
{"property": "C142", "status": "partial", "theorems": ["Huira.ImageValues.C142_partial", "Huira.ImageValues.C142_channel", "Huira.ImageValues.C142_sizes", "Huira.ImageValues.C142_violated_moved", "Huira.ImageValues.C142_violated_sizes", "Huira.ImageValues.C142_violated"], "note": "Violated: an image that was moved away keeps its width and height without its pixels, so using it is undefined (C142_violated_moved); two negative sizes are accepted and the product of the sizes overflows int (C142_violated_sizes). Proved: every program that keeps clear of these runs as its pictures say (C142_partial), exactly which sizes are accepted (C142_sizes), channels (C142_channel). Negative coordinates are the subject of C17."},
{"property": "C143", "status": "proved", "theorems": ["Huira.Observer.C143_pixels", "Huira.Observer.C143_stars", "Huira.Observer.C143_picture", "Huira.Observer.C143_read_back"], "note": "Exact real arithmetic (the code rounds to single precision at the end). The lens itself (cast_ray, project_point, in_fov) works in the turned frame."},
{"property": "C144", "status": "partial", "theorems": ["Huira.Observer.C144_partial", "Huira.Observer.C144_scaled_partial", "Huira.Observer.C144_violated", "Huira.Observer.C144_violated_direction"], "note": "Violated for a camera whose instance or ancestors are scaled: a uniform factor k divides all distances by k (C144_scaled_partial: exactly right for |k| = 1), a non-uniform one also changes directions (C144_violated_direction). Proved for unscaled cameras, all objects, nested models and modes (C144_partial)."},
{"property": "C145", "status": "partial", "theorems": ["Huira.Observer.C145_aberrated_partial", "Huira.Observer.C145_other_modes_partial", "Huira.Observer.C145_violated"], "note": "Violated in TRUE_STATE and GEOMETRIC_STATE: stars are always displaced by aberration, nodes are not; they stay together exactly when the camera rests or moves along the direction (C145_other_modes_partial). Proved for ABERRATED_STATE (C145_aberrated_partial)."},
{"property": "C146", "status": "partial", "theorems": ["Huira.Ids.C146_partial", "Huira.Ids.C146_counts", "Huira.Ids.C146_violated_move", "Huira.Ids.C146_violated_threads", "Huira.Ids.C146_violated"], "note": "Violated: a moved object gets id 0 (C146_violated_move), and the counter is not atomic, so objects constructed at the same time by two threads can get the same id (C146_violated_threads). Proved for every history without moves and overlapping constructions (C146_partial, C146_counts)."},
{"property": "C147", "status": "proved", "theorems": ["Huira.Collect.C147_warnings"], "note": "Ids of lights and of unresolved objects are taken to be distinct (C146). Order and multiplicity of the warnings are part of the theorem."},
{"property": "C148", "status": "proved", "theorems": ["Huira.Collect.C148_intersect", "Huira.Collect.C148_resolve"], "note": "Tracing and resolving a single ray are parameters (C95, C99). The theorem includes the exact condition under which resolve_hits is undefined: a hit without a ray."},
{"property": "C149", "status": "partial", "theorems": ["Huira.Sensor.Noise.C149_value_partial", "Huira.Sensor.Noise.C149_range_partial", "Huira.Sensor.Noise.C149_quiet_partial", "Huira.Sensor.Noise.C149_history_partial", "Huira.Sensor.Noise.C149_violated"], "note": "Violated: the generator is a static variable, so the second readout of the same picture differs (C149_violated). Proved: the value of every pixel (C149_value_partial), its range for every generator (C149_range_partial), repeatability without noise (C149_quiet_partial) and that with noise only the sizes of the earlier noisy readouts matter, never their scenes or settings (C149_history_partial). Concurrent readouts (a data race) are left out."},
{"property": "C150", "status": "partial", "theorems": ["Huira.Registry.Scenes.C150_partial", "Huira.Registry.Scenes.C150_found_partial", "Huira.Registry.Scenes.C150_lookups", "Huira.Registry.Scenes.C150_frame_partial", "Huira.Registry.Scenes.C150_foreign_delete_partial", "Huira.Registry.Scenes.C150_violated_rename", "Huira.Registry.Scenes.C150_violated"], "note": "Violated: set_name accepts a handle of another scene, renames the object under its own scene's feet and can make an unrelated object of the scene called unfindable (C150_violated_rename). Proved for every history in which objects are renamed only by their own scene (C150_partial, C150_found_partial, C150_frame_partial, C150_foreign_delete_partial); lookups of other scenes never change, whatever the handle (C150_lookups)."},
{"property": "C151", "status": "partial", "theorems": ["Huira.Assets.Mixed.C151_partial", "Huira.Assets.Mixed.C151_others_partial", "Huira.Assets.Mixed.C151_dead_handle", "Huira.Assets.Mixed.C151_violated_instance", "Huira.Assets.Mixed.C151_violated_geometry", "Huira.Assets.Mixed.C151_violated"], "note": "Violated: a primitive of another scene may be instantiated, and its own scene then deletes it although it is shown, leaving a dangling pointer (C151_violated_instance); a geometry of another scene may be used, and goes while the primitive stays, or the primitive goes and the call throws (C151_violated_geometry). Proved for every history in which scenes are given only their own objects (C151_partial); a deletion never touches other scenes (C151_others_partial)."},
{"property": "C152", "status": "partial", "theorems": ["Huira.Suns.C152_partial", "Huira.Suns.C152_accepted", "Huira.Suns.C152_frame", "Huira.Suns.C152_sun_stays_partial", "Huira.Suns.C152_violated_elsewhere", "Huira.Suns.C152_violated_reused", "Huira.Suns.C152_violated"], "note": "Violated only when scenes are mixed: an object whose sun is shown in another scene makes the render throw, no earlier call complains (C152_violated_elsewhere); only the address of the light is compared, so a light that takes the place of a deleted one is mistaken for it (C152_violated_reused). Proved for every history that gives each scene its own objects only, with any allocator (C152_partial, C152_sun_stays_partial); what is accepted and that failures change nothing (C152_accepted, C152_frame)."},
{"property": "C153", "status": "partial", "theorems": ["Huira.Logger.Crash.C153_scopes", "Huira.Logger.Crash.C153_calls", "Huira.Logger.Crash.C153_report_partial", "Huira.Logger.Crash.C153_lines", "Huira.Logger.Crash.C153_exception_partial", "Huira.Logger.Crash.C153_file_partial", "Huira.Logger.Crash.C153_end", "Huira.Logger.Crash.C153_violated_small", "Huira.Logger.Crash.C153_violated_disk", "Huira.Logger.Crash.C153_violated"], "note": "Violated: with the handler disabled a faulting instruction is executed again for ever (C153_violated, C153_end says exactly when a signal ends the process); a buffer smaller than the crash message loses its beginning, the announcement of the crash (C153_violated_small); a full disk is not noticed (C153_violated_disk). Proved: the open scopes are exactly those around the crash point (C153_scopes), the end of the report for every buffer size (C153_report_partial, C153_lines), uncaught exceptions (C153_exception_partial), files (C153_file_partial). One crashing thread (several: C32); fewer than 2^64 log calls."},
{"property": "C154", "status": "partial", "theorems": ["Huira.Units.C154_partial", "Huira.Units.C154_number_partial", "Huira.Units.C154_compare_partial", "Huira.Units.C154_unit_partial", "Huira.Units.C154_violated"], "note": "Violated for sums, multiples and negatives held in degrees Celsius or Fahrenheit (C154_violated). Proved for every other formula by induction over formulas (C154_partial, C154_number_partial, C154_compare_partial, C154_unit_partial). Exact reals; overflow of std::ratio is a compile error and not modelled."},
{"property": "C155", "status": "proved", "theorems": ["Huira.RotFl.C155_rotation", "Huira.RotFl.C155_round_trip", "Huira.RotFl.C155_apply"], "note": "Every sum, product, quotient and square root is followed by a rounding, of which only |fl x - x| <= u (|x| + 1) for |x| <= 16 is assumed (u <= 1e-7; IEEE float and double meet it). glm's formulas are assumed (glm 1.0, left to right); fused multiply-adds are not modelled; matrices handed in are within 200 u of the rotation they stand for."},
{"property": "C156", "status": "partial", "theorems": ["Huira.Blur.C156_disc_stale", "Huira.Blur.C156_disc_partial", "Huira.Blur.C156_new_aperture", "Huira.Blur.C156_never_null", "Huira.Blur.C156_psf_stale", "Huira.Blur.C156_psf_partial", "Huira.Blur.C156_own_partial", "Huira.Blur.C156_partial", "Huira.Blur.C156_violated_fstop", "Huira.Blur.C156_violated_sensor", "Huira.Blur.C156_violated_off", "Huira.Blur.C156_violated", "Huira.Blur.C156_refused"], "note": "Violated: the disc is not recomputed by set_fstop, set_focal_length, sensor and intrinsics calls (C156_violated_fstop), a new aperture forgets the focus (C156_new_aperture), the aperture's function is not remade for a new sensor, aperture or intrinsic matrix (C156_violated_sensor), use_aperture_psf(false) removes a user's own function (C156_violated_off). Proved: exactly which disc and function are in use after every history (C156_disc_stale, C156_psf_stale, C156_own_partial), and that they are the right ones when focus and f-stop are set last (C156_partial)."},
{"property": "C157", "status": "proved", "theorems": ["Huira.RotFl.C157_place", "Huira.RotFl.C157_seen"], "note": "For frames of scale one; the bound is relative to the distances from the root, not to the distance between observer and object: single-precision scenes far from the root lose nearby detail by that much. Overflow, underflow and fused operations are not modelled."},
{"property": "C158", "status": "partial", "theorems": ["Huira.Life.C158_partial", "Huira.Life.C158_freed_partial", "Huira.Life.C158_violated_copy", "Huira.Life.C158_violated_assign", "Huira.Life.C158_violated_failed", "Huira.Life.C158_violated"], "note": "Violated: SceneView has a destructor releasing a raw Embree scene but no copy or move operations of its own, so a copy, a move or a vector of views leads to use after free and double release (C158_violated_copy), a = SceneView(...) leaves a with a freed scene and loses the old one (C158_violated_assign), and a construction that throws loses its scene (C158_violated_failed). Proved for every history without copies, moves and assignments: nothing dangles in any order of ending (C158_partial) and everything is freed (C158_freed_partial)."},
{"property": "C159", "status": "partial", "theorems": ["Huira.Thr.C159_partial", "Huira.Thr.C159_prepared_partial", "Huira.Thr.C159_violated_race", "Huira.Thr.C159_violated"], "note": "Violated: blas() tests and resets a mutable pointer without a lock; whenever two threads begin with the same geometry that no view showed yet, a schedule makes one instance what the other freed (C159_violated_race). Proved under every schedule: safe and complete if each geometry not shown before is shown by one of the threads only (C159_partial), in particular after a first view of everything (C159_prepared_partial)."},
{"property": "C160", "status": "partial", "theorems": ["Huira.Snap.C160_kept_partial", "Huira.Snap.C160_partial", "Huira.Snap.C160_violated_camera", "Huira.Snap.C160_violated_material", "Huira.Snap.C160_violated_view", "Huira.Snap.C160_violated"], "note": "Violated: cameras (except the sensor's rotation), materials and the irradiance of point sources are shared with the scene: later settings change earlier views (C160_violated_camera, C160_violated_material), and a second view of a moved resolved point source changes its brightness in the first (C160_violated_view). Proved for every history: poses, background and stars are kept (C160_kept_partial), and the whole picture is kept by every history that does not touch the shared settings (C160_partial)."},
{"property": "C161", "status": "proved", "theorems": ["Huira.Core.Resolution.C161_values", "Huira.Core.Resolution.C161_independent", "Huira.Core.Resolution.C161_copy", "Huira.Core.Resolution.C161_assign"], "note": "Refinement of a heap with references, allocator reuse and undefined behaviour by plain pairs, for every history (C161_values); C161_independent, C161_copy, C161_assign are its consequences for copies."},
{"property": "C162", "status": "partial", "theorems": ["Huira.Core.Resolution.C162_products_partial", "Huira.Core.Resolution.C162_quotients_partial", "Huira.Core.Resolution.C162_narrowed_partial", "Huira.Core.Resolution.C162_violated_number", "Huira.Core.Resolution.C162_violated"], "note": "Violated: s/res is computed as res/s for every operand (C162_violated_number), and res/v and res/s return float whatever the operand's type (C162_violated). Proved: products for every type, res/v and res/s for float, v/res for every type, and the bound on what narrowing loses."},
{"property": "C163", "status": "partial", "theorems": ["Huira.Listing.C163_partial", "Huira.Listing.C163_violated", "Huira.Listing.C163_violated_full", "Huira.Listing.C163_one_line_partial", "Huira.Listing.C163_read_back_partial", "Huira.Listing.C163_violated_names", "Huira.Listing.C163_contents"], "note": "Violated: no line ends after an asset, so a list of any number of assets is one line (C163_violated, C163_one_line_partial), and names with dashes make different scenes print the same (C163_violated_names). Proved for every history: the number is right, each asset is shown once with the name the scene knows it by, in order (C163_partial), names without dashes can be read back (C163_read_back_partial), and so can the numbers of print_contents (C163_contents)."},
{"property": "C164", "status": "partial", "theorems": ["Huira.Listing.C164_partial", "Huira.Listing.C164_safe_partial", "Huira.Listing.C164_violated", "Huira.Listing.C164_violated_full"], "note": "Violated by every scene with an asset to prune: the function's body is empty (C164_violated). It holds exactly of scenes with nothing to prune (C164_partial), and nothing shown is removed (C164_safe_partial)."},
{"property": "C165", "status": "partial", "theorems": ["Huira.PyBind.Callable.C165_list_partial", "Huira.PyBind.Callable.C165_signature_partial", "Huira.PyBind.Callable.C165_partial", "Huira.PyBind.Callable.C165_violated", "Huira.PyBind.Callable.C165_violated_full"], "note": "Violated: types such as Vec3<float>, Mat3<float>, Vec2<float>, Resolution and NodeHandle have no Python class, so every call that takes or gives one raises TypeError (C165_violated). Proved: which signatures can be called, for all signatures (C165_signature_partial), and that exactly the listed functions cannot (C165_partial)."},
{"property": "C166", "status": "partial", "theorems": ["Huira.PyBind.Callable.C166_partial", "Huira.PyBind.Callable.C166_values_partial", "Huira.PyBind.Callable.C166_violated", "Huira.PyBind.Callable.C166_violated_full"], "note": "Violated by every ray but the default one (C166_violated): every ray any script ever holds is the default ray (C166_partial)."},
{"property": "C167", "status": "partial", "theorems": ["Huira.PyBind.ImageRepr.C167_partial", "Huira.PyBind.ImageRepr.C167_violated", "Huira.PyBind.ImageRepr.C167_exactly_partial", "Huira.PyBind.ImageRepr.C167_violated_full"], "note": "Violated by the images of rendered spectra: their repr reads the characters of a string destroyed during the import (C167_violated). Proved for the common image classes after every history (C167_partial), and that a list of bindings satisfies it exactly if none is spectral (C167_exactly_partial)."},
{"property": "C168", "status": "partial", "theorems": ["Huira.Sensor.C168_partial", "Huira.Sensor.C168_violated", "Huira.Sensor.C168_violated_full", "Huira.Sensor.C168_violated_picture", "Huira.Sensor.C168_repair"], "note": "Violated: the constructor checks only the resolution and the sign of the pixel size, so any other values, NaN included, make a sensor (C168_violated), whose pictures can be NaN (C168_violated_picture). Proved: allowed configurations are accepted unchanged, negative resolutions and pixels that are not positive are refused, the resolution stays allowed (C168_partial); and after every history a value is allowed exactly if it was at first or its setter was given an allowed one (C168_repair)."},
{"property": "C169", "status": "partial", "theorems": ["Huira.ImageIO.Bundle.C169_partial", "Huira.ImageIO.Bundle.C169_python_partial", "Huira.ImageIO.Bundle.C169_back_partial", "Huira.ImageIO.Bundle.C169_violated", "Huira.ImageIO.Bundle.C169_violated_full"], "note": "Violated by exactly the pictures of another bit depth or exponent than the default, or made by a sensor: the results always have 8 bits, exponent 1 and no sensor depth (C169_violated), so a 16-bit picture is written with 8. Proved for pictures of every size: every channel of every pixel is converted, size and transparency kept, Python's functions agree (C169_partial), and converting there and back gives the colours again outside the gap of C28 (C169_back_partial)."},
{"property": "C170", "status": "partial", "theorems": ["Huira.Cli.Help.C170_partial", "Huira.Cli.Help.C170_plain_partial", "Huira.Cli.Help.C170_which", "Huira.Cli.Help.C170_violated", "Huira.Cli.Help.C170_violated_full", "Huira.Cli.Help.C170_commands_partial"], "note": "Violated by every option with only a long name, which is shown as if given by position (C170_violated). Proved for every list of arguments: every line is printed, no padding is negative, the descriptions are aligned (C170_partial); which arguments are shown right (C170_which), and that those of both commands are (C170_plain_partial, C170_commands_partial)."}
]}
