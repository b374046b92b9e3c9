{"id": "C01", "title": "Names identify scene objects", "statement": "After any history of adding, renaming and removing objects in a scene, every object still in the scene has a non-empty name, no two of them share a name, and looking a live object's name up returns exactly that object; looking up any other name throws.", "quantifier": "every finite sequence of add (each object added at most once), set_name and remove calls with arbitrary (possibly empty or colliding) names", "why_tests_cant": "the number of histories and of name collisions (including names that look like generated ones, e.g. \"a_1\") is unbounded", "anchors": ["include/huira_impl/scene/name_registry.ipp: NameRegistry::add, remove, set_name, lookup, make_unique_name_"]}
{"id": "C02", "title": "Requested names are honoured", "statement": "Adding or renaming an object with a name nobody uses gives exactly that name; if the name is taken the object gets `name_k` for the smallest k >= 1 that is free, and name generation always terminates.", "quantifier": "every registry state and every requested name", "why_tests_cant": "needs every set of occupied names; termination cannot be observed by a finite number of runs", "anchors": ["include/huira_impl/scene/name_registry.ipp: make_unique_name_"]}
{"id": "C03", "title": "Renaming an object to its present name changes nothing", "statement": "Calling set_name with the name the object already has leaves the object's name unchanged.", "quantifier": "every registry state and every live object", "why_tests_cant": "the failure depends on the state of the registry at the call; tests only try fresh names", "anchors": ["include/huira_impl/scene/name_registry.ipp: set_name, make_unique_name_"]}
{"id": "C04", "title": "Removed objects become unreachable and their handles die", "statement": "After an object is removed, every operation through any handle to it throws, its former name is free again, looking that name up throws, and the names, lookups and handles of all other objects are unaffected.", "quantifier": "every registry history and every handle copy", "why_tests_cant": "quantifies over all copies of handles and all later histories", "anchors": ["include/huira_impl/scene/name_registry.ipp: remove", "include/huira_impl/handles/handle.ipp: valid, get_"]}
{"id": "C05", "title": "SPICE-driven frames have SPICE-driven ancestors", "statement": "In every reachable scene, a node whose position (resp. rotation) is driven by SPICE has a parent whose position (resp. rotation) is driven by SPICE, so the SPICE state can be composed from the root.", "quantifier": "every sequence of frame creation and of position/rotation/SPICE/callback setters, successful or throwing", "why_tests_cant": "inductive invariant over an unbounded tree and an unbounded history", "anchors": ["include/huira_impl/scene/node.ipp: set_position, set_rotation, set_spice_origin, set_spice_frame, set_spice, set_custom_*_callback, set_manual_transform", "include/huira_impl/scene/frame_node.ipp"]}
{"id": "C06", "title": "A rejected frame operation changes nothing", "statement": "When a frame or node setter or a child-creating call throws, the scene graph is exactly as it was before the call.", "quantifier": "every reachable scene graph and every throwing call", "why_tests_cant": "requires comparing complete states for every possible failure point", "anchors": ["include/huira_impl/scene/node.ipp", "include/huira_impl/scene/frame_node.ipp: new_child", "include/huira_impl/handles/scene/frame_handle.ipp: new_spice_subframe"]}
{"id": "C07", "title": "Deleting a subframe or instance removes it", "statement": "Calling delete_subframe / delete_instance on a handle of an existing child removes that child (and its subtree) from the scene and does not throw.", "quantifier": "every reachable scene graph and every child in it", "why_tests_cant": "must hold for all trees and histories", "anchors": ["include/huira_impl/scene/scene.ipp: Scene::prune*, Scene::remove*", "include/huira_impl/scene/frame_node.ipp: delete_child", "include/huira_impl/handles/scene/frame_handle.ipp"]}
{"id": "C08", "title": "No primitive outlives its geometry", "statement": "After delete_geometry, the scene contains no primitive using that geometry, every primitive using another geometry is still present, and every geometry referenced by a remaining primitive is still registered.", "quantifier": "every history of adding and deleting geometries, materials and primitives", "why_tests_cant": "unbounded histories of sharing between primitives and geometries", "anchors": ["include/huira_impl/scene/scene.ipp: delete_geometry, delete_primitive, new_primitive"]}
{"id": "C09", "title": "Static getters report the component they name", "statement": "get_static_position/rotation/velocity/angular_velocity and the SPICE string getters succeed exactly when the corresponding component is in the required mode, and return the last value set.", "quantifier": "every combination of position mode and rotation mode a node can reach", "why_tests_cant": "mode combinations arise only through histories mixing setters", "anchors": ["include/huira_impl/scene/node.ipp: get_static_rotation, get_static_angular_velocity, get_spice_frame, get_spice_origin, get_static_position"]}
{"id": "C10", "title": "World transforms compose down the tree", "statement": "For a manually positioned frame at any depth, the transform to the solar-system barycentre is the composition of the local transforms on the path from the root, and mapping a point frame by frame gives the same point as mapping it with the composed transform.", "quantifier": "every tree depth, every chain of local transforms with unit (uniform) scale, every point", "why_tests_cant": "unbounded depth and real-valued parameters", "anchors": ["include/huira_impl/scene/node.ipp: get_ssb_transform_", "include/huira_impl/core/transform.ipp: operator*, apply_to_point"]}
{"id": "C11", "title": "Star catalogue write/read round trip", "statement": "Writing a star list and reading it back without a magnitude limit returns a permutation of the stars with a non-NaN magnitude, ordered by non-decreasing magnitude, each with identical data.", "quantifier": "every finite star list", "why_tests_cant": "arbitrary list lengths, magnitudes and duplicates", "anchors": ["include/huira_impl/stars/io/star_catalog.ipp: write_star_data, read_star_data"]}
{"id": "C12", "title": "Magnitude-limited read returns exactly the bright stars", "statement": "Reading a catalogue file written by the library with limit m returns exactly the stored stars with magnitude <= m, in file order, for any limit including one equal to stored magnitudes.", "quantifier": "every catalogue and every limit", "why_tests_cant": "binary-search boundary conditions over all sizes and ties", "anchors": ["include/huira_impl/stars/io/star_catalog.ipp: read_star_data"]}
{"id": "C13", "title": "Foreign files are rejected", "statement": "read_star_data throws when the file is shorter than the header or star table, has a wrong magic or another version; it never returns stars that were not in the file.", "quantifier": "every byte string", "why_tests_cant": "input space is all byte strings", "anchors": ["include/huira_impl/stars/io/star_catalog.ipp: read_star_data", "include/huira/stars/io/star_catalog.hpp: HrscHeader"]}
{"id": "C14", "title": "Tycho-2 identifiers are unique", "statement": "Packing a Tycho-2 triple and unpacking it returns the triple for every value that fits the documented field widths, so distinct stars have distinct ids.", "quantifier": "all (tyc1,tyc2,tyc3) within 14/16/4 bits", "why_tests_cant": "the space has 2^34 elements", "anchors": ["include/huira/stars/io/tycho2_id.hpp", "include/huira_impl/stars/io/star_data.ipp"]}
{"id": "C15", "title": "Loading a Tycho-2 file is memory safe and row-local", "statement": "For any catalogue text the loader writes only inside its star array and each star's data depends only on its own line.", "quantifier": "every file content, including missing final newline, blank fields and skipped rows", "why_tests_cant": "all byte strings; memory safety is not observable by passing tests", "anchors": ["include/huira_impl/stars/io/load_tycho2.ipp: load_tycho2"]}
{"id": "C16", "title": "Clipping a catalogue", "statement": "clip_by_magnitude keeps exactly the stars whose magnitude is a number not above the limit, in their original order, and is idempotent and monotone in the limit.", "quantifier": "every star list and limit", "why_tests_cant": "unbounded lists, NaN handling", "anchors": ["include/huira_impl/stars/io/star_catalog.ipp: clip_by_magnitude"]}
{"id": "C17", "title": "Pixel addressing", "statement": "For an image of any size the (x,y) accessors address distinct in-range elements for in-range coordinates, every element is addressed by exactly one pixel, and any out-of-range coordinate throws instead of touching memory.", "quantifier": "every width, height and signed coordinate pair", "why_tests_cant": "unbounded sizes; out-of-range coordinates include negative ones", "anchors": ["include/huira_impl/images/image.ipp: at, operator(), to_linear_"]}
{"id": "C18", "title": "Texture sampling stays inside the image", "statement": "Nearest and bilinear sampling with clamp, repeat or mirror wrapping reads only pixels of the image for every finite uv, bilinear weights are non-negative and sum to one, so a sample lies between the smallest and largest pixel.", "quantifier": "every image size, every wrap mode, every finite coordinate", "why_tests_cant": "continuum of coordinates and unbounded sizes", "anchors": ["include/huira_impl/images/image.ipp: sample_nearest, sample_bilinear, wrap_*"]}
{"id": "C19", "title": "Convolution result does not depend on the algorithm chosen", "statement": "convolve(kernel) computes the same mathematical operation whether the kernel is small (direct) or large (FFT).", "quantifier": "every image and kernel size", "why_tests_cant": "the two code paths are selected by size, and agreement concerns every image/kernel", "anchors": ["include/huira_impl/images/image.ipp: convolve"]}
{"id": "C20", "title": "Frame-buffer channels are independent", "statement": "After any sequence of enable_*/disable_* calls, has_X reports the last request for X, an enabled channel has the buffer's resolution, enabling twice keeps contents, and no call on another channel changes it.", "quantifier": "every sequence of enable/disable/clear calls on all channels and every resolution", "why_tests_cant": "exponential number of histories", "anchors": ["include/huira/render/frame_buffer.hpp: FrameBuffer::enable_*, has_*, clear"]}
{"id": "C21", "title": "BMP decoding is memory safe", "statement": "read_image on BMP bytes either throws or returns an image whose every pixel was read inside the supplied data.", "quantifier": "every byte string", "why_tests_cant": "memory safety over all inputs; headers chosen adversarially", "anchors": ["include/huira_impl/images/io/bmp_io.ipp: read_image_bmp"]}
{"id": "C22", "title": "TGA decoding is memory safe", "statement": "read_image on TGA bytes either throws or returns an image; it never reads outside the data or writes outside the decoded pixel buffer.", "quantifier": "every byte string", "why_tests_cant": "adversarial run-length packets cannot be enumerated", "anchors": ["include/huira_impl/images/io/tga_io.ipp: read_image_tga, decode_rle"]}
{"id": "C23", "title": "HDR decoding is memory safe", "statement": "The Radiance HDR reader either throws or returns exactly width*height pixels and never accesses memory outside the input or the scanline buffer.", "quantifier": "every byte string", "why_tests_cant": "adversarial run-length data cannot be enumerated", "anchors": ["include/huira_impl/images/io/hdr_io.ipp"]}
{"id": "C24", "title": "HDR run-length decoding inverts encoding", "statement": "Any sequence of literal and run packets describing a scanline channel decodes to exactly that channel, and RGBE decoding scales by the shared exponent.", "quantifier": "every scanline content and every legal packetisation", "why_tests_cant": "infinitely many packetisations", "anchors": ["include/huira_impl/images/io/hdr_io.ipp: read_rle_scanline, rgbe_to_float"]}
{"id": "C25", "title": "Integer pixel conversion round trips", "statement": "Converting an integer pixel to floating point and back returns the original value for every value of every supported integer type.", "quantifier": "every value of uint8/uint16/int8/int16/...", "why_tests_cant": "exact claim over each whole type, rounding mode included", "anchors": ["include/huira_impl/images/io/convert_pixel.ipp: integer_to_float, float_to_integer"]}
{"id": "C26", "title": "FITS write/read round trip", "statement": "A pixel that is an exact ADC level k/max is read back from the FITS file as the same value.", "quantifier": "every bit depth, BITPIX setting, level and saturation setting", "why_tests_cant": "combination of depths, levels and user-set keywords", "anchors": ["include/huira_impl/images/io/fits_io.ipp: write_image_fits, read_image_fits"]}
{"id": "C27", "title": "BMP rows and channels land where they belong", "statement": "For a valid uncompressed 24/32-bit BMP the returned pixel (x,y) is the file's pixel with its blue/green/red bytes in red/green/blue order, rows bottom-up or top-down as the header says.", "quantifier": "every width, height, padding and bit depth", "why_tests_cant": "index arithmetic for all sizes", "anchors": ["include/huira_impl/images/io/bmp_io.ipp"]}
{"id": "C28", "title": "sRGB transfer functions are inverse and monotone", "statement": "Both transfer functions are strictly increasing, map 0 to 0 and 1 to 1, and decoding after encoding returns the input.", "quantifier": "every real in [0,1]", "why_tests_cant": "continuum of values and a piecewise threshold", "anchors": ["include/huira/images/io/color_space.hpp: srgb_to_linear, linear_to_srgb"]}
{"id": "C29", "title": "Format detection is deterministic by extension", "statement": "detect_image_format depends only on the extension, accepts exactly the listed lower- and upper-case spellings, and every other extension is reported unknown.", "quantifier": "every path string", "why_tests_cant": "all strings", "anchors": ["include/huira_impl/images/io/read_image.ipp"]}
{"id": "C30", "title": "The log dump is the tail of the log", "statement": "After any history of log calls and buffer resizes, dumping returns the most recently retained messages in the order they were logged, never more than the buffer size, and nothing that was not logged.", "quantifier": "every sequence of log and set_buffer_size calls", "why_tests_cant": "ring-buffer wrap-around and resize interleavings", "anchors": ["include/huira_impl/util/logger.ipp: Logger::log, set_buffer_size, dump"]}
{"id": "C31", "title": "Console verbosity is nested", "statement": "In every reachable logger configuration debug output enabled implies info enabled implies warnings enabled.", "quantifier": "every sequence of enable/disable calls", "why_tests_cant": "all histories", "anchors": ["include/huira_impl/util/logger.ipp: enable_console_*"]}
{"id": "C32", "title": "A crash report is printed at most once", "statement": "Whatever the number of threads and interleavings that enter the crash handler, exactly one prints the report.", "quantifier": "every number of threads and every interleaving", "why_tests_cant": "schedules are unbounded and nondeterministic", "anchors": ["include/huira_impl/util/logger.ipp: crash report compare_exchange"]}
{"id": "C33", "title": "Leaving a medium restores the surrounding medium", "statement": "For a ray crossing any properly nested arrangement of participating media, after leaving a medium the current medium is what it was before entering, for any nesting depth; for arbitrarily overlapping media each medium is active exactly between its entry and its exit.", "quantifier": "every sequence of boundary crossings, any nesting depth", "why_tests_cant": "unbounded nesting and crossing orders", "anchors": ["include/huira/volumes/medium_stack.hpp: MediumStack::toggle, top"]}
{"id": "C34", "title": "Beer-Lambert transmittance", "statement": "Transmittance through a medium lies in [0,1], is 1 at distance 0, decreases with distance, and over consecutive segments it is the product of the segment transmittances.", "quantifier": "every extinction >= 0 and all distances", "why_tests_cant": "continuum of values", "anchors": ["include/huira/volumes/medium.hpp: evaluate_transmittance", "include/huira_impl/scene/scene_view.ipp: evaluate_transmittance"]}
{"id": "C35", "title": "Sensor response stays in range and is monotone", "statement": "The digitised value of every pixel lies in [0,1], for all signals and parameters, and without noise more photo-electrons never give a smaller value; values above full well or ADC range saturate.", "quantifier": "every signal, gain, bias, full-well capacity, bit depth and every noise sample", "why_tests_cant": "continuum of parameters", "anchors": ["include/huira_impl/cameras/sensors/simple_sensor.ipp: noise_and_adc", "include/huira_impl/cameras/sensors/sensor_model.ipp"]}
{"id": "C36", "title": "Rejected sensor settings are not applied", "statement": "A sensor setter that throws leaves every sensor parameter unchanged, and after any history all parameters are inside their documented ranges.", "quantifier": "every sequence of setter calls with arbitrary (incl. NaN/inf) arguments", "why_tests_cant": "all histories and all argument values", "anchors": ["include/huira_impl/cameras/sensors/sensor_model.ipp: set_*"]}
{"id": "C37", "title": "Projection and ray casting are inverse", "statement": "Without distortion, projecting any point on the ray cast through a pixel coordinate returns that coordinate, and casting through the projection of a visible point returns the point's direction, in both axis conventions.", "quantifier": "every intrinsics, pixel coordinate, depth and convention", "why_tests_cant": "continuum", "anchors": ["include/huira_impl/cameras/camera_model.ipp: project_point, pixel_to_direction_, cast_ray"]}
{"id": "C38", "title": "The view frustum is the field of view", "statement": "For an undistorted camera a direction is inside the frustum exactly when it is in front of the camera and its projection falls inside the pixel rectangle.", "quantifier": "every intrinsics, resolution and direction", "why_tests_cant": "continuum of directions and resolutions; degenerate resolutions", "anchors": ["include/huira_impl/cameras/camera_model.ipp: compute_frustum_, in_fov", "include/huira_impl/render/frustum.ipp: contains"]}
{"id": "C39", "title": "Rejected camera settings are not applied", "statement": "A camera setter that throws leaves the camera's observable behaviour unchanged.", "quantifier": "every camera state and rejected argument", "why_tests_cant": "all states and arguments", "anchors": ["include/huira_impl/cameras/camera_model.ipp: set_focal_length, configure_sensor_from_*"]}
{"id": "C40", "title": "Derived camera data follow the settings", "statement": "After any sequence of setters the ray directions, principal point and frustum used by the camera are those of the current focal length, sensor, distortion and convention.", "quantifier": "every sequence of camera setters", "why_tests_cant": "staleness depends on the order of calls", "anchors": ["include/huira_impl/cameras/camera_model.ipp: compute_intrinsics_, compute_distortion_field_, compute_frustum_, set_sensor, set_distortion, delete_distortion, use_blender_convention"]}
{"id": "C41", "title": "Intrinsic-matrix round trip", "statement": "Setting an intrinsic matrix [[fx,0,cx],[0,fy,cy],[0,0,1]] configures focal lengths fx, fy and principal point (cx,cy).", "quantifier": "every such matrix", "why_tests_cant": "matrix layout error is invisible for special matrices", "anchors": ["include/huira_impl/cameras/camera_model.ipp: set_intrinsic_matrix, set_intrinsics"]}
{"id": "C42", "title": "Lens distortion models agree with their definition", "statement": "A distortion model with all coefficients zero is the identity, and any point at which the undistortion iteration settles is mapped by distort to the distorted input.", "quantifier": "every point, every coefficient vector", "why_tests_cant": "continuum; convergence behaviour", "anchors": ["include/huira_impl/cameras/distortion/brown_distortion.ipp", "include/huira_impl/cameras/distortion/owen_distortion.ipp", "include/huira_impl/cameras/distortion/opencv_distortion.ipp"]}
{"id": "C43", "title": "Veiling glare conserves light", "statement": "Applying veiling glare leaves total power unchanged, keeps pixels non-negative, and alpha outside [0,1] is rejected.", "quantifier": "every image size, content and alpha", "why_tests_cant": "all images", "anchors": ["include/huira_impl/render/renderer.ipp: veiling glare", "include/huira_impl/cameras/camera_model.ipp: set_veiling_glare"]}
{"id": "C44", "title": "Aperture and focus settings read back", "statement": "fstop() after set_fstop(N) returns N, area and diameter are consistent, focus distance and diopters are reciprocal.", "quantifier": "every positive setting and focal length", "why_tests_cant": "continuum", "anchors": ["include/huira_impl/cameras/camera_model.ipp: set_fstop, fstop, set_focus_distance", "include/huira_impl/cameras/apertures/circular_aperture.ipp"]}
{"id": "C45", "title": "Triangle clipping is exact", "statement": "Clipping a triangle by a frustum yields triangles whose union is exactly the part of the triangle inside all planes; at most N+3 vertices.", "quantifier": "every triangle and every number of planes", "why_tests_cant": "continuum of geometries and unbounded plane count", "anchors": ["include/huira_impl/render/frustum.ipp: clip_triangle"]}
{"id": "C46", "title": "Visible intervals are exact", "statement": "Clipping a trajectory against a frustum returns sorted, disjoint time intervals containing exactly the times (up to a small tolerance at crossings) at which the trajectory is inside every plane.", "quantifier": "every trajectory, every number of planes", "why_tests_cant": "unbounded numbers of planes, samples and crossings, touching end points", "anchors": ["include/huira_impl/render/frustum.ipp: clip_arc, arc_intervals_inside_plane_, intersect_intervals_"]}
{"id": "C47", "title": "Trajectories pass through their samples", "statement": "The interpolated trajectory reproduces every sampled position at its sample time, for any number of samples, and is continuous with continuous first and second derivative for four or more.", "quantifier": "every number of samples, every spacing and every data", "why_tests_cant": "unbounded N; tridiagonal elimination", "anchors": ["include/huira_impl/render/trajectory_arc.ipp: build, evaluate"]}
{"id": "C48", "title": "Plane crossings are all found", "statement": "find_plane_crossings of a trajectory returns, sorted and within tolerance, exactly the times at which the trajectory is in the plane (unless it stays in it).", "quantifier": "every trajectory and every plane", "why_tests_cant": "continuum; case analysis on discriminants", "anchors": ["include/huira_impl/render/trajectory_arc.ipp: find_plane_crossings, solve_linear_, solve_quadratic_, solve_cubic_"]}
{"id": "C49", "title": "Every pixel is rendered once, independent of scheduling", "statement": "For every resolution each pixel belongs to exactly one tile, and the image is the same for every order in which tiles are processed.", "quantifier": "every resolution, every tile schedule", "why_tests_cant": "schedules are unbounded and nondeterministic", "anchors": ["include/huira_impl/render/renderer.ipp: path_trace_, render_unresolved_"]}
{"id": "C50", "title": "Unresolved sources are not lost at tile borders", "statement": "A point source whose projection is inside the image contributes its full power to the image whatever its sub-pixel position.", "quantifier": "every resolution and position", "why_tests_cant": "continuum of positions; tile borders", "anchors": ["include/huira_impl/render/renderer.ipp: render_unresolved_"]}
{"id": "C51", "title": "Motion-blur weights conserve energy", "statement": "The weights of the time samples of a source sum to the fraction of the exposure it is visible.", "quantifier": "every set of visible intervals and sample counts", "why_tests_cant": "continuum, unbounded number of samples", "anchors": ["include/huira_impl/render/renderer.ipp: render_unresolved_"]}
{"id": "C52", "title": "PSF truncation error is bounded", "statement": "The radius looked up for an irradiance guarantees that every PSF pixel outside it would receive less than the threshold, and it is monotone in irradiance.", "quantifier": "every PSF kernel, threshold and irradiance", "why_tests_cant": "all kernels", "anchors": ["include/huira_impl/render/psf_lut.ipp: build_radius_lut, lookup_effective_radius"]}
{"id": "C53", "title": "Blur kernels conserve energy", "statement": "Every PSF / defocus kernel returned is non-negative, sums to one (or is all zero when it has no energy), and lookup never indexes outside the kernel bank.", "quantifier": "every kernel size, bank count, sub-pixel offset", "why_tests_cant": "continuum of offsets, unbounded sizes", "anchors": ["include/huira_impl/cameras/psfs/psf.ipp: normalize_kernel, get_kernel", "include/huira_impl/cameras/apertures/aperture.ipp", "include/huira_impl/cameras/apertures/circular_aperture.ipp"]}
{"id": "C54", "title": "Sampling statistics", "statement": "Power-heuristic weights of two strategies are in [0,1] and sum to one; the running mean and variance accumulated per pixel equal the mean and variance of the accepted samples.", "quantifier": "every pair of pdfs; every finite list of samples", "why_tests_cant": "unbounded number of samples", "anchors": ["include/huira_impl/render/renderer.ipp: power_heuristic, path_trace_"]}
{"id": "C55", "title": "Interpolated camera and instance motion hits its key frames", "statement": "The transform interpolated at a sample time is the transform recorded for that time, rotation and scale included.", "quantifier": "every list of at least two key transforms", "why_tests_cant": "all lists/times", "anchors": ["include/huira_impl/render/renderer.ipp: interpolate_transform"]}
{"id": "C56", "title": "Mirrors show lights", "statement": "A light hit directly after a specular bounce (or on the camera ray) contributes with MIS weight one, since no other strategy can sample it.", "quantifier": "every path prefix", "why_tests_cant": "all path histories", "anchors": ["include/huira_impl/render/renderer.ipp: path_trace_"]}
{"id": "C57", "title": "BSDF sampling weight is f*cos/pdf", "statement": "For every reflectance model, whenever sample returns a direction, its weight times the pdf reported for that direction equals the evaluated BSDF times the cosine.", "quantifier": "every material parameter, every incident direction and random numbers", "why_tests_cant": "continuum", "anchors": ["include/huira_impl/materials/bsdfs/*.ipp: sample, eval, pdf"]}
{"id": "C58", "title": "Reflectance is reciprocal and non-negative", "statement": "Swapping the two directions does not change the evaluated BSDF and its value is never negative, for directions above the surface.", "quantifier": "all pairs of directions and parameters", "why_tests_cant": "continuum", "anchors": ["include/huira_impl/materials/bsdfs/lambertian_bsdf.ipp, oren_nayar_bsdf.ipp, hapke_bsdf.ipp, mcewen_bsdf.ipp, lommel_seeliger_bsdf.ipp"]}
{"id": "C59", "title": "Hemisphere sampling matches its pdf", "statement": "Each hemisphere sampling routine returns a unit vector in the upper hemisphere whose density is the pdf returned with it.", "quantifier": "all random numbers in [0,1)", "why_tests_cant": "density statements concern the whole continuum", "anchors": ["include/huira/materials/sampling_utils.hpp"]}
{"id": "C60", "title": "Tangent frames are orthonormal", "statement": "The tangent frame built from any unit normal is orthonormal and right handed.", "quantifier": "every unit normal", "why_tests_cant": "continuum incl. the poles", "anchors": ["include/huira_impl/render/interaction.ipp: build_default_tangent_frame"]}
{"id": "C61", "title": "Unit conversions", "statement": "Converting a quantity to another unit of the same kind and back is the identity, conversion commutes with addition and scaling, comparisons are unit independent, and each unit has its internationally defined SI factor.", "quantifier": "every pair of units of a kind and every value", "why_tests_cant": "all values and pairs; composed units", "anchors": ["include/huira/units/quantity.hpp", "include/huira/units/units.hpp", "include/huira_impl/units/quantity.ipp"]}
{"id": "C62", "title": "Dimensional algebra", "statement": "Dimensions of products, quotients and powers of quantities add, subtract and scale exponents; only equal dimensions are convertible.", "quantifier": "every dimension expression", "why_tests_cant": "unbounded expressions", "anchors": ["include/huira/units/dimensionality.hpp", "include/huira_impl/units/dimensionality.ipp"]}
{"id": "C63", "title": "Rotations are rotations", "statement": "Every Rotation built from axis-angle, Euler angles, quaternions or products/inverses is orthonormal with determinant one; applying then inverse-applying is the identity and preserves lengths and angles.", "quantifier": "all angles, axes and all composition histories", "why_tests_cant": "continuum and unbounded products", "anchors": ["include/huira_impl/core/rotation.ipp"]}
{"id": "C64", "title": "Transform algebra", "statement": "Composing transforms then applying equals applying in turn, applying the inverse undoes the transform for positions, directions, rotations, velocities and scale.", "quantifier": "all transforms and points", "why_tests_cant": "continuum", "anchors": ["include/huira_impl/core/transform.ipp"]}
{"id": "C65", "title": "Time intervals are sampled correctly", "statement": "samples(N) returns N times inside the interval, evenly spaced, including both ends for N>=2 and the centre for N=1; N=0 throws; the three constructors agree.", "quantifier": "every interval and N", "why_tests_cant": "unbounded N", "anchors": ["include/huira/core/interval.hpp"]}
{"id": "C66", "title": "Spectral bins partition the band and conserve totals", "statement": "Constructors reject overlapping or reversed bins, from_total distributes a total over the bins without losing any, integration over a band is additive over adjoining bands, and arithmetic acts per bin.", "quantifier": "every number of bins, edges and values", "why_tests_cant": "unbounded bins", "anchors": ["include/huira/core/spectral_bins.hpp", "include/huira_impl/core/spectral_bins.ipp"]}
{"id": "C67", "title": "Ellipsoid hits", "statement": "Every reported ray-ellipsoid intersection lies on the ellipsoid and on the ray beyond t_min, it is the nearest such point, and no hit is reported only if there is none.", "quantifier": "every ellipsoid and ray", "why_tests_cant": "continuum", "anchors": ["include/huira_impl/geometry/ellipsoid.ipp"]}
{"id": "C68", "title": "Meshes never index outside their vertices", "statement": "A constructed mesh has only in-range indices, interpolated attributes are convex combinations, and malformed input throws.", "quantifier": "every vertex/index buffer", "why_tests_cant": "unbounded buffers", "anchors": ["include/huira_impl/geometry/mesh.ipp"]}
{"id": "C69", "title": "Secondary rays start on the right side", "statement": "offset_intersection moves the origin strictly towards the side the normal points to, coordinate by coordinate, by a bounded amount.", "quantifier": "every representable coordinate and normal", "why_tests_cant": "all float bit patterns", "anchors": ["include/huira_impl/render/interaction.ipp: offset_intersection_"]}
{"id": "C70", "title": "Stellar aberration is relativistic", "statement": "With ABERRATED_STATE a node is shown in the direction in which an observer with the given velocity sees it according to special relativity (a unit direction), at its distance; an observer at rest sees it where it is, and speeds at or above that of light are refused.", "quantifier": "all observer positions, velocities and node positions", "why_tests_cant": "continuum", "anchors": ["include/huira_impl/core/physics.ipp: compute_aberrated_direction", "include/huira_impl/scene/node.ipp: get_apparent_transform"]}
{"id": "C71", "title": "Material slots: histories and resets", "statement": "After any sequence of setters and resets on a material, every slot (albedo, alpha, metallic, roughness, normal, transmission, emissive) holds the newest image and factor given since its last reset; reset_X gives X what a new material has and changes nothing else; giving an image leaves a non-zero factor alone; calls on different slots do not influence each other.", "quantifier": "every sequence of material setters, any length and interleaving", "why_tests_cant": "all histories", "anchors": ["include/huira_impl/materials/material.ipp", "include/huira_impl/handles/material_handle.ipp", "include/huira/materials/material.hpp"]}
{"id": "C72", "title": "Free-path sampling follows Beer-Lambert", "statement": "A sampled free path exceeds t with probability equal to the transmittance at t for the mean extinction; vacuum never scatters.", "quantifier": "every extinction, distance and random number", "why_tests_cant": "distribution statement over the continuum", "anchors": ["include/huira/volumes/medium.hpp: sample_free_path", "include/huira_impl/render/renderer.ipp: path_trace_"]}
{"id": "C73", "title": "TGA pixels land where the file says", "statement": "For every uncompressed or run-length TGA the pixel at (x,y) of the returned image is the file's pixel for that position under the file's origin bits, and a run-length file decodes to the same image as the raw file it stands for.", "quantifier": "every image size, origin and packet structure", "why_tests_cant": "all packetisations of all images", "anchors": ["include/huira_impl/images/io/tga_io.ipp: read_image_tga"]}
{"id": "C74", "title": "HDR orientation is honoured", "statement": "A Radiance file is decoded with the scanline orientation its resolution line declares.", "quantifier": "every orientation string and image size", "why_tests_cant": "all files", "anchors": ["include/huira_impl/images/io/hdr_io.ipp: read_image_hdr"]}
{"id": "C75", "title": "Concurrent logging", "statement": "Any number of threads may call log at the same time: no call writes outside the buffer, and when all have returned the dump is the tail of the messages in the order the calls took their slots.", "quantifier": "every number of threads and every interleaving of log calls (and resizes)", "why_tests_cant": "schedules are unbounded", "anchors": ["include/huira_impl/util/logger.ipp: Logger::log, set_buffer_size"]}
{"id": "C76", "title": "Isotropic scattering is isotropic", "statement": "Directions sampled by the isotropic phase function are unit vectors distributed with the density reported with them.", "quantifier": "all random numbers", "why_tests_cant": "distribution statement over the continuum", "anchors": ["include/huira/volumes/scattering/isotropic_scatter.hpp: sample, evaluate"]}
{"id": "C77", "title": "Depth of field focuses at the focus distance", "statement": "With depth of field every ray traced for a pixel starts inside the aperture and all of them pass through one point of the pixel's central ray, at the configured focus distance; at infinite focus they are parallel.", "quantifier": "every lens, pixel, focus distance and aperture sample", "why_tests_cant": "continuum of samples and pixels", "anchors": ["include/huira_impl/cameras/camera_model.ipp: cast_ray", "include/huira_impl/cameras/apertures/circular_aperture.ipp: sample"]}
{"id": "C78", "title": "Light is counted once when scattering in a medium", "statement": "At a scattering event inside a participating medium the light arriving directly is gathered by one estimator (or by several whose weights sum to one), so a lit medium has the brightness of the rendering equation.", "quantifier": "every path history, medium, light", "why_tests_cant": "all path histories", "anchors": ["include/huira_impl/render/renderer.ipp: path_trace_"]}
{"id": "C79", "title": "A pixel is not lost because of some of its samples", "statement": "A pixel all of whose finite samples have finite radiance ends with a finite value, whatever the other samples were.", "quantifier": "every list of per-pixel samples", "why_tests_cant": "unbounded lists, IEEE special values", "anchors": ["include/huira_impl/render/renderer.ipp: path_trace_"]}
{"id": "C80", "title": "Russian roulette is unbiased and clamping keeps colour", "statement": "The expected throughput after roulette equals the throughput before it, roulette never acts on the first bounces, and the indirect clamp bounds the brightest bin while keeping ratios between bins.", "quantifier": "every throughput, bounce number and clamp value", "why_tests_cant": "continuum of throughputs", "anchors": ["include/huira_impl/render/renderer.ipp: path_trace_"]}
{"id": "C81", "title": "Sphere lights: samples, density and power", "statement": "A point sampled on a sphere light lies on the visible part of the sphere in the direction returned, directions are uniform in the cone the light subtends with the density reported by sample and by pdf, and the light emits the power it was given.", "quantifier": "every light position, radius, shading point and random numbers", "why_tests_cant": "continuum", "anchors": ["include/huira_impl/assets/lights/sphere_light.ipp", "include/huira/assets/lights/sphere_light.hpp"]}
{"id": "C82", "title": "Environment map lookup is equirectangular", "statement": "Every ray direction maps to a pixel inside the environment image, by longitude and latitude, and different directions map to different image coordinates.", "quantifier": "every unit direction", "why_tests_cant": "continuum", "anchors": ["include/huira_impl/render/renderer.ipp: background lookup"]}
{"id": "C83", "title": "SPICE nodes report SPICE's state", "statement": "A node whose position (or orientation) is taken from SPICE has the world position and velocity (orientation and angular velocity) SPICE reports, whatever the source of its other component and the motion of its parents.", "quantifier": "all kernels, trees, times and parent transforms", "why_tests_cant": "all trees and ephemerides", "anchors": ["include/huira_impl/scene/node.ipp: get_ssb_transform_"]}
{"id": "C84", "title": "Reported velocities are rates of change", "statement": "The world velocity and angular velocity reported for hand-set nodes are the time derivatives of their world position and orientation, at any depth of the tree.", "quantifier": "every tree depth, all positions, rates, times", "why_tests_cant": "a statement about derivatives at every time and depth", "anchors": ["include/huira_impl/scene/node.ipp: get_local_position_at_, get_local_rotation_at_, get_ssb_transform_", "include/huira_impl/core/transform.ipp: operator*"]}
{"id": "C85", "title": "Getters of a node answer according to the component's own source", "statement": "The static (SPICE) getters of position, velocity, rotation, angular velocity (origin, frame) return the stored value exactly when that component is set by hand (by SPICE) and throw otherwise.", "quantifier": "all combinations of sources and values", "why_tests_cant": "all histories of setters", "anchors": ["include/huira_impl/scene/node.ipp: get_static_*, get_spice_*"]}
{"id": "C86", "title": "Light time", "statement": "With light-time correction a node is shown as it was when the light left it: the emission time used is consistent with the distance travelled up to a bound depending only on the node's speed and the tolerance.", "quantifier": "every motion slower than light, every observer", "why_tests_cant": "every trajectory; convergence of an iteration", "anchors": ["include/huira_impl/scene/node.ipp: get_geometric_state_, get_apparent_transform"]}
{"id": "C87", "title": "Nadir pointing", "statement": "The nadir-pointing callbacks give a right-handed orientation whose z axis points away from (towards) the parent, with y in the orbital plane on the side of the velocity, whenever position and velocity are not parallel.", "quantifier": "all positions and velocities", "why_tests_cant": "continuum", "anchors": ["include/huira/scene/state_callbacks/nadir_point.hpp"]}
{"id": "C88", "title": "Times convert between Julian dates and ephemeris time without loss", "statement": "Building a time from a Julian or Modified Julian date in any time scale and reading it back gives the date, and vice versa; MJD is JD - 2400000.5; Julian years are (JD - 2451545)/365.25; times are totally ordered; adding a duration given in any unit of time and subtracting the old time gives the duration.", "quantifier": "every time, date, time scale and duration", "why_tests_cant": "all reals and every scale; unbounded values", "anchors": ["include/huira_impl/core/time.ipp", "include/huira/core/time.hpp"]}
{"id": "C89", "title": "A quantity never holds NaN", "statement": "No sequence of operations on quantities leaves NaN in one: the operation that would produce it throws.", "quantifier": "every sequence of operations on quantities", "why_tests_cant": "unbounded sequences of operations", "anchors": ["include/huira/units/quantity.hpp"]}
{"id": "C90", "title": "RGB input keeps its spectrum when converted to other bins", "statement": "Converting an RGB value to another set of bins gives each bin lying in the RGB band the mean of the three-band RGB spectrum over that bin; a grey input gives the same grey in every such bin.", "quantifier": "every set of disjoint bins and every RGB value", "why_tests_cant": "unbounded sets of bins and real edges", "anchors": ["include/huira/core/spectral_bins.hpp", "include/huira_impl/core/spectral_bins.ipp: convert_rgb_to_spectral"]}
{"id": "C91", "title": "Sampled curves are averaged exactly over each bin", "statement": "integrate_over_data throws exactly for lists of different lengths, empty lists and wavelengths that do not ascend strictly; otherwise every bin holds the exact mean over it of the curve that is linear between samples, zero before the first and flat after the last, and a bin starting after the last sample holds zero.", "quantifier": "every sampled curve of any length and every set of bins", "why_tests_cant": "unbounded sample lists, real edges and values", "anchors": ["include/huira_impl/core/spectral_bins.ipp: integrate_over_data"]}
{"id": "C92", "title": "Skipped textures do not change the picture", "statement": "A reflectance model's value, pdf and samples depend only on the parameters its requirements() name, so evaluating only those textures gives the same reflectance, pdf and samples as evaluating all of them.", "quantifier": "every model, material history, surface point, pair of directions and random numbers", "why_tests_cant": "continuum of parameters and all histories", "anchors": ["include/huira_impl/materials/bsdfs/*.ipp: requirements", "include/huira_impl/materials/material.ipp: evaluate, set_bsdf"]}
{"id": "C93", "title": "Sampling a reflectance model is unbiased", "statement": "The expected value of sample weight times incoming radiance, over the two uniform random numbers, equals the integral of BSDF times cosine times radiance over the hemisphere; sampled directions have the density pdf reports; pdf is never negative and is zero below the surface.", "quantifier": "every model, parameters, frame, outgoing direction, radiance distribution", "why_tests_cant": "an integral over a continuum", "anchors": ["include/huira_impl/materials/bsdfs/*.ipp: sample, pdf, eval", "include/huira/materials/sampling_utils.hpp"]}
{"id": "C94", "title": "Evaluating a material at a point", "statement": "Material::evaluate returns texture times factor (times vertex colour for the albedo) for every parameter the model reads, hands on the point's other data, and returns an orthonormal right-handed shading frame on the same side as the surface normal; a new material evaluates to the vertex colour, opaque, not metallic, not emitting, with the frame unchanged.", "quantifier": "every material history, texture, factor and surface point", "why_tests_cant": "continuum and all histories", "anchors": ["include/huira_impl/materials/material.ipp: evaluate", "include/huira_impl/scene/scene.ipp: constructor (default images)"]}
{"id": "C95", "title": "Hits are resolved in world space", "statement": "For every hit, the reported position is the image of the surface point under the instance's transform at the time of the ray, the geometric normal is a unit normal of the transformed surface facing the viewer, the shading normal is on the same side, and tangent, bitangent and shading normal form a right-handed orthonormal frame.", "quantifier": "every instance transform, local surface point and ray", "why_tests_cant": "continuum of transforms and directions", "anchors": ["include/huira_impl/scene/scene_view.ipp: resolve_hit"]}
{"id": "C96", "title": "Unresolved objects have the brightness their description says", "statement": "At every position, an unresolved emitter's irradiance times the area of the sphere through the observer is its power; an unresolved Lambertian sphere reflects the fraction of the light it intercepts given by its albedo, with the Lambert phase law and the inverse square law; an unresolved asteroid has the apparent magnitude of the H-G system for its distances and phase angle.", "quantifier": "every power, radius, albedo, H, G, position of object and light", "why_tests_cant": "continuum of positions and parameters", "anchors": ["include/huira_impl/assets/unresolved/unresolved_emitter.ipp: resolve_irradiance", "include/huira_impl/assets/unresolved/unresolved_sphere.ipp: resolve_irradiance, lambert_phase_function", "include/huira_impl/assets/unresolved/unresolved_asteroid.ipp: resolve_irradiance, asteroid_phi1, asteroid_phi2"]}
{"id": "C97", "title": "Magnitudes and colours become photon fluxes consistently", "statement": "Five magnitudes are a factor of a hundred in every channel; black bodies are positive and brighter when hotter in every bin; a catalogued star gets a positive temperature that decreases with its colour index and a solid angle such that its black body gives exactly the V-band photon flux of its magnitude.", "quantifier": "every magnitude, colour, albedo, temperature and set of wavelength bins", "why_tests_cant": "continuum of magnitudes, arbitrary bins", "anchors": ["include/huira_impl/core/physics.ipp: plancks_law, linspace, black_body, v_band_irradiance, visual_magnitude_to_irradiance, integrate", "include/huira_impl/stars/io/star_data.ipp: process_magnitude", "include/huira_impl/stars/star.ipp: compute_irradiance_"]}
{"id": "C98", "title": "Stars are drawn where the catalogue says, moving with their proper motion", "statement": "A star's direction is a unit vector, equal to the catalogued right ascension and declination at the catalogue epoch, and at J2000 it moves over the sky with exactly the catalogued proper motion in both coordinates, at every declination off the poles.", "quantifier": "every position, proper motion, epoch and time", "why_tests_cant": "continuum of positions and times", "anchors": ["include/huira_impl/stars/star.ipp: compute_direction_", "include/huira_impl/stars/io/star_data.ipp: normalize_epoch"]}
{"id": "C99", "title": "Everything in the scene graph is rendered once, where it is", "statement": "A view traces rays against every primitive of the scene graph exactly once per place it is instanced, in the scene and inside models at any depth, with the composed transforms of that place at every time sample, and against every sphere light; a hit leads back to the primitive and transforms it was traced with; every light and unresolved object is present once per place; every unresolved instance has the irradiance of its own place under the light instance it was given.", "quantifier": "every scene graph, transform product and identifiers returned by the ray tracer", "why_tests_cant": "unbounded graphs and nesting", "anchors": ["include/huira_impl/scene/scene_view.ipp: traverse_and_collect_, traverse_model_graph_, handle_asset_ptr_, add_primitive_instance_, build_tlas_, resolve_hit", "include/huira/scene/scene_view.hpp: InstanceMapping"]}
{"id": "C100", "title": "No surface reflects more light than it receives", "statement": "Seen from any direction above the surface, BSDF times cosine integrated over the hemisphere is at most one for every reflectance model with parameters in range, and at most the albedo for the models that have one.", "quantifier": "every model, parameters in range, frame and outgoing direction", "why_tests_cant": "an integral over a continuum of directions, for a continuum of parameters", "anchors": ["include/huira_impl/materials/bsdfs/*.ipp: eval"]}
{"id": "C101", "title": "The reflectance models are the published ones and respond to their parameters as documented", "statement": "A brighter albedo never darkens a surface; a smooth Oren-Nayar surface is Lambertian; McEwen's model mixes Lommel-Seeliger and Lambert with weight exp(-3 phase/pi); Hapke's model is the published formula, whose opposition surge is largest at zero phase and fades monotonically; the microfacet distribution is normalised for every roughness; a metal has no diffuse part; out-of-range roughness and metallic act as the nearest value in range.", "quantifier": "every model, parameters, pair of directions and phase angle", "why_tests_cant": "continuum of directions and parameters", "anchors": ["include/huira_impl/materials/bsdfs/*.ipp: eval", "include/huira_impl/materials/bsdfs/hapke_bsdf.ipp: phase_function_dhg, opposition_effect, h_function", "include/huira_impl/materials/bsdfs/cook_torrance_bsdf.ipp: ggx_D, smith_G1, schlick_fresnel"]}
{"id": "C102", "title": "A node on a Keplerian orbit follows the ellipse described by its elements", "statement": "A node given a Keplerian orbit with semi-major axis a, eccentricity e < 1, inclination, node, argument of periapsis, mean anomaly at epoch and gravitational parameter is at every time on the ellipse with those elements: its distance stays between a(1-e) and a(1+e), its velocity is the rate of change of its position, it obeys Newton's law of gravitation, and it repeats with period 2 pi sqrt(a^3/mu).", "quantifier": "every set of elements with a > 0, 0 <= e < 1 and mu > 0, every time", "why_tests_cant": "the ellipse, the force law and the period are statements about all times and all elements; a test on circular orbits passes even though eccentric ones are wrong", "anchors": ["include/huira/scene/state_callbacks/keplerian_orbit.hpp: KeplerianOrbit::operator()", "include/huira_impl/core/spice.ipp: conics", "include/huira_impl/scene/node.ipp: set_keplerian_orbit"]}
{"id": "C103", "title": "The depth and normal pictures show the depths and normals of the image", "statement": "In the picture of a depth image each pixel where an object was seen has a grey value between 0 and 0.8 that grows with the depth, the nearest object pixel is 0 and the farthest 0.8, and the background is white; the picture of a normal image encodes each unit normal as a colour in range from which the normal can be recovered.", "quantifier": "every depth image with non-negative depths, every normal image, every pixel", "why_tests_cant": "holds for every image; a single-object or flat scene gives equal depths, which tests on typical images do not contain", "anchors": ["include/huira/images/color_map.hpp: depth_map, normal_map"]}
{"id": "C104", "title": "PNG files are read and written pixel by pixel", "statement": "Reading a valid PNG of any colour type and bit depth gives an image of the file's size whose every pixel is the colour the PNG specification assigns to that pixel, with the alpha image present exactly when the file has transparency and alpha was asked for; an image written as PNG and read back has the same size, every component (clamped to [0, 1]) within 0.52 of a quantisation step, the same alpha and the same colour space hint, and is unchanged if its values are already levels; no byte string and no image makes either operation misbehave.", "quantifier": "every byte string, every PNG file (5 colour types, all bit depths, palette, tRNS), every image, alpha image, bit depth and colour space hint", "why_tests_cant": "the rows and samples are combined by index arithmetic that must be right for every size and every combination of colour type, depth and transparency; files that end early and NaN pixels are not in test suites", "anchors": ["include/huira_impl/images/io/png_io.ipp: read_png_raw_, detect_png_color_space_, read_image_png, read_image_png_mono, write_image_png"]}
{"id": "C105", "title": "TIFF files are read and written pixel by pixel", "statement": "Reading a grey or RGB TIFF (8, 16, 32-bit unsigned or float, strips or tiles, interleaved or planar, with or without alpha) gives an image of the file's size whose pixels are the stored fractions of full range (inverted for MinIsWhite) and whose alpha is the file's alpha channel; files that cannot be decoded or represented are refused; an image written and read back has the same size and each component rounded down to a step of the depth, exactly itself if it was already on a step; no file and no image makes either operation misbehave.", "quantifier": "every TIFF file (size, sample format, layout, tile size, extra samples), every image, both depths, every call", "why_tests_cant": "index arithmetic over all layouts and tile sizes; damaged tiles, subsampled files and very wide images are not in test suites", "anchors": ["include/huira_impl/images/io/tiff_io.ipp: read_tiff_raw_, read_image_tiff_rgb, read_image_tiff_mono, write_image_tiff"]}
{"id": "C106", "title": "JPEG files are read and written pixel by pixel", "statement": "Reading a decodable JPEG gives an image of the file's size whose pixels are the decoded levels divided by 255, marked sRGB and without alpha; writing refuses empty images and qualities outside 1 to 100, and an image written and read back has the same size and each component within the codec's own error plus about half a level; no file and no image makes either operation misbehave.", "quantifier": "every byte string, every image, every quality, every codec error", "why_tests_cant": "index arithmetic for every size; images of over 2 GiB and NaN pixels are not in test suites", "anchors": ["include/huira_impl/images/io/jpeg_io.ipp: read_jpeg_raw_, read_image_jpeg, read_image_jpeg_mono, write_image_jpeg"]}
{"id": "C107", "title": "The in-memory TIFF stream behaves like a read-only file", "statement": "While decoding a TIFF from memory, any sequence of reads, seeks, writes, size queries and closes that the decoder makes is answered as a read-only file of those bytes would answer: reads deliver the next bytes and never more than are left, seeks reach exactly the positions from the start to the end, failed seeks move nothing, and no sequence touches memory outside the buffer.", "quantifier": "every byte string shorter than 2^63 and every finite history of calls with any arguments", "why_tests_cant": "call histories and 64-bit argument values are unbounded", "anchors": ["include/huira_impl/images/io/tiff_io.ipp: tiff_mem_read_, tiff_mem_write_, tiff_mem_seek_, tiff_mem_size_, tiff_mem_close_"]}
{"id": "C108", "title": "A loaded model has its parts where the file puts them", "statement": "After load_model, drawing an instance of the model draws each mesh of the file once for every place the file's node tree gives it, each vertex moved by exactly the product of the matrices on the path from the file's root to that place (then by the instance's own transform); this holds for every invertible node matrix.", "quantifier": "every node tree of any depth and width, every matrix, every point", "why_tests_cant": "trees and matrices are unbounded; test models contain only rotations with uniform scale, so mirrored, sheared and tiny nodes are never exercised", "anchors": ["include/huira_impl/assets/io/model_loader.ipp: convert_transform_, process_node_, load"]}
{"id": "C109", "title": "A loaded mesh is the mesh of the file", "statement": "Each mesh of the file becomes a geometry whose triangles are the file's triangles in order, with positions, normals, texture coordinates (v flipped), vertex colours (converted) and tangents interpolated from the file's values; points and lines are skipped; it has the material the file names, or a default one if the file names none; a file whose indices are out of range is refused.", "quantifier": "every mesh (any number of vertices and faces, any mixture of face sizes and attributes), every barycentric point", "why_tests_cant": "unbounded meshes and every combination of optional attributes", "anchors": ["include/huira_impl/assets/io/model_loader.ipp: convert_mesh_, process_meshes_"]}
{"id": "C110", "title": "The materials of a loaded file look as the file describes them", "statement": "After load_model, each material of the file exists in the file's order and, evaluated at any point, has the albedo, opacity, roughness, metallic, normal and emission its own description gives: pictures (embedded or on disk) sampled at the texture coordinates, colours converted from linear light, times the factors; a missing or unreadable picture counts as absent; what a material looks like does not depend on the other materials of the file, and textures already in the scene are unchanged.", "quantifier": "every list of materials with any slots filled by any pictures, every sharing of pictures between materials and slots, every scene contents", "why_tests_cant": "the loader deduplicates pictures through caches keyed by path: the result must be independent of the history of earlier materials", "anchors": ["include/huira_impl/assets/io/model_loader.ipp: process_materials_, load_material_texture_, detect_image_format_, load_rgb_from_file_, load_rgb_from_buffer_, convert_embedded_raw_, rgb_to_vec3_, get_texture_cache_", "include/huira_impl/scene/scene.ipp: add_texture, add_normal_texture"]}
{"id": "C111", "title": "Loading a model succeeds as a whole or leaves the scene unchanged", "statement": "load_model either adds the model with exactly the materials, textures, geometries, primitives and nodes of the file, or throws and leaves the scene as it was.", "quantifier": "every file (missing, unreadable, damaged in any of its parts) and every scene", "why_tests_cant": "an exception can occur at any mesh or node of an unbounded file after any number of objects were registered", "anchors": ["include/huira_impl/assets/io/model_loader.ipp: load", "include/huira_impl/scene/scene.ipp: load_model"]}
{"id": "C112", "title": "A successful fetch leaves every Tycho-2 file complete", "statement": "After any sequence of fetch-tycho2 runs, interrupted at any point or not, with any network failures in between, a run that exits with 0 leaves all 22 catalogue files complete; files other than its own are never touched, and a failed refresh keeps the files it could not replace.", "quantifier": "every history of runs and flags, every network outcome per file, every buffering behaviour and device, every crash point (also in the middle of a write)", "why_tests_cant": "crash points and histories are unbounded; tests can neither kill the program at every byte nor fill the disk at every moment", "anchors": ["apps/huira_cli/commands/fetch_tycho2.cpp: fetch_tycho2, download_file, write_callback"]}
{"id": "C113", "title": "Processing Tycho-2 turns the files into exactly one complete catalogue and loses no star", "statement": "process-tycho2 (and fetch-tycho2 --process --clean) that exits with 0 leaves a tycho2.hrsc that reads back as exactly the stars of the 22 files; a missing file changes nothing and exits with 1; at every crash point either the sources or the complete catalogue are there, and an older catalogue survives until the new one is complete.", "quantifier": "every content of the files, every device and buffering, every crash point, with and without clean-up", "why_tests_cant": "a crash or a full disk can strike between any two writes", "anchors": ["apps/huira_cli/commands/process_tycho2.cpp: process_tycho2", "include/huira_impl/stars/io/star_catalog.ipp: write_star_data"]}
{"id": "C114", "title": "The command line runs the right command", "statement": "A command runs exactly when its name is the first argument that is no verbose flag; it gets the arguments from its name on unchanged, is verbose exactly if a verbose flag came first, and its result is the exit code; --version and --help before it win; unknown or missing commands exit with 1; the registration order of the translation units does not matter.", "quantifier": "every argument list and every registration order", "why_tests_cant": "argument lists are unbounded and static initialisation order is not fixed", "anchors": ["apps/huira_cli/cli.cpp: Registry::dispatch, Registry::add"]}
{"id": "C115", "title": "make_path provides the directories a path needs", "statement": "After make_path(p) the directories needed by p exist: a file name can be opened for writing and a directory name is a directory; nothing else changes; it throws exactly if a needed directory is a file; repeating it changes nothing.", "quantifier": "every path and every state of the file system", "why_tests_cant": "paths and directory trees are unbounded", "anchors": ["include/huira/util/paths.hpp: make_path", "include/huira_impl/util/paths.ipp: make_path"]}
{"id": "C116", "title": "The expected picture is the light transported by the scene", "statement": "The expected value of a camera sample (direct plus indirect radiance, before any clamping) is the light that paths of the allowed length carry from lamps and background to the camera: Russian roulette, partly transparent layers, the choice of sampling densities and the combination of light and direction sampling change the noise, never the mean; with growing max_bounces it converges to the full light transport.", "quantifier": "every scene of surfaces, partly transparent layers, lights and background, every reflectance model, sampling density and roughness, every camera ray, channel and max_bounces", "why_tests_cant": "an expected value over random light paths is an infinite average; a test sees a few noisy samples", "anchors": ["include/huira_impl/render/renderer.ipp: path_trace (bounce loop), power_heuristic", "include/huira_impl/scene/scene_view.ipp: evaluate_transmittance"]}
{"id": "C117", "title": "The direct and indirect pictures split the light as named", "statement": "The direct picture holds, on average, exactly the light seen directly and the lamp light reflected once; the indirect picture holds the rest; together they are the picture.", "quantifier": "every scene, camera ray, channel and number of bounces", "why_tests_cant": "expected values over random paths", "anchors": ["include/huira_impl/render/renderer.ipp: direct_radiance, indirect_radiance"]}
{"id": "C118", "title": "Vectors and matrices pass between numpy and the library unchanged", "statement": "A numpy array of the right shape given for a vector, matrix or quaternion arrives with its elements in place whatever its memory layout and scalar type, another shape is refused, and what the library returns as an array and takes back is the same value.", "quantifier": "every array: any shape, strides, layout, scalar type and element values", "why_tests_cant": "array layouts (transposed, reversed, sliced, broadcast) are infinitely many; tests use freshly made arrays", "anchors": ["bindings/python/include/huira/core/types_py.ipp: bind_vec, bind_mat, numpy constructors", "bindings/python/include/huira/core/rotation_py.ipp: numpy overloads"]}
{"id": "C119", "title": "Images pass between numpy and the library unchanged", "statement": "Constructing an image from an array of shape (H, W) or (H, W, C) gives the image with the same pixels or raises; np.asarray(image) is a view in which element [y, x, c] is channel c of pixel (x, y), distinct elements are distinct scalars of the image; to_numpy and back is the identity.", "quantifier": "every array shape, memory layout and size, every image size and channel count", "why_tests_cant": "sizes and layouts are unbounded; overflow cases need gigabytes", "anchors": ["bindings/python/include/huira/images/image_py.ipp: bind_image (py::init from array, def_buffer, to_numpy)"]}
{"id": "C120", "title": "A numpy view of an image stays valid while the script holds it", "statement": "As long as a Python script holds a numpy view of an image, of a bundle's image or of a frame buffer's channel, its elements can be accessed, whatever the script drops, assigns, enables, clears or renders in between, and storage is released once nothing refers to it.", "quantifier": "every script (sequence of creating, viewing, dropping, assigning, enabling, clearing and rendering), every size and number of objects", "why_tests_cant": "lifetimes depend on the history of the process; a dangling view often still reads plausible values", "anchors": ["bindings/python/include/huira/images/image_py.ipp: def_buffer, bind_image_bundle", "bindings/python/include/huira/render/frame_buffer_py.ipp: bind_frame_buffer", "include/huira/render/frame_buffer.hpp: enable_", "include/huira_impl/render/renderer.ipp: Renderer::render"]}
{"id": "C121", "title": "Python quantities keep their physical meaning", "statement": "A quantity given to the Python API in any unit reaches the library as the same physical quantity, sums, differences and comparisons treat the physical quantities, every unit of a dimension is accepted where that dimension is expected, and objects of another dimension are refused.", "quantifier": "every unit, value, operator and parameter", "why_tests_cant": "all pairs of units times all real values", "anchors": ["bindings/python/include/huira/units/units_py.ipp: unit_from_py, bind_quantity_type, register_unit_conversions", "bindings/python/include/huira/core/time_py.ipp: __add__, __sub__"]}
{"id": "C122", "title": "Positions, orientations and spins from SPICE mean what SPICE says", "statement": "spkezr returns SPICE's state in metres and metres per second with the light time; pxform and sxform return the rotation that takes components in the local frame to components in the parent frame; the angular velocity of sxform is that of the local frame with respect to the parent, in parent components.", "quantifier": "every ephemeris, frame pair and time", "why_tests_cant": "frames that spin about a coordinate axis of the parent, which tests use, hide a wrong frame of the angular velocity", "anchors": ["include/huira_impl/core/spice.ipp: spkezr, pxform, sxform", "include/huira_impl/core/rotation.ipp"]}
{"id": "C123", "title": "SPICE errors and kernels are contained", "statement": "Whatever is called in whatever order, a SPICE error becomes an exception and neither ends the process nor disturbs later calls; the current directory is never changed for good; loading brings in exactly the kernels named, in order, relative to the documented directory, and time conversions use the program's own leap seconds if it loaded some, otherwise the default ones.", "quantifier": "every program (sequence of calls), every file tree, every failure", "why_tests_cant": "error status, current directory and kernel pool are global state that depends on the history of the process", "anchors": ["include/huira_impl/core/spice.ipp: call_spice, check_spice_error, furnsh, furnsh_relative_to_file, ensure_lsk_loaded"]}
{"id": "C124", "title": "SPICE calls may be made from several threads", "statement": "Under every schedule every call gets what it would get if it were the only one: its value, or an exception with its own error.", "quantifier": "every number of concurrent calls, every interleaving, every set of failing calls", "why_tests_cant": "interleavings cannot be enumerated by tests and errors are rare", "anchors": ["include/huira/core/spice.hpp: documentation", "include/huira_impl/core/spice.ipp: call_spice, check_spice_error"]}
{"id": "C125", "title": "The stars of a scene are the catalogue at the requested time", "statement": "Adding stars at a time replaces the stars of the scene by all catalogue entries brighter than the limit, moved by their proper motion to that time; moving stars follow later updates of the time exactly as if freshly added, fixed ones do not; a call that fails leaves the stars as they were.", "quantifier": "every catalogue, every sequence of calls that add, set and update stars, every failure", "why_tests_cant": "the stars depend on the whole history of calls; tests make one", "anchors": ["include/huira_impl/scene/scene.ipp: add_stars, set_stars, update_stars", "include/huira_impl/stars"]}
{"id": "C126", "title": "What lies between a point and a light dims it once, and equally for shadow rays and for paths", "statement": "The expected transmittance of a shadow ray is the product over the surfaces and media it crosses of the fraction each lets through; it lies between zero and one; a surface or medium dims a direct light by as much as it dims light found by continuing the path.", "quantifier": "every sequence of surfaces and media along a ray, every opacity and transmission, every random draw", "why_tests_cant": "expected values over all random draws and all stacks of media cannot be sampled", "anchors": ["include/huira_impl/scene/scene_view.ipp: evaluate_transmittance", "include/huira_impl/render/renderer.ipp: pass-through of surfaces"]}
{"id": "C127", "title": "Models can be used whatever was deleted before", "statement": "Setting all BSDFs of a model changes exactly the materials its primitives use; finding a material succeeds exactly when a primitive of the model uses it; no sequence of loads, instantiations and deletions makes a later call or a render read a destroyed object.", "quantifier": "every model graph, every sequence of calls", "why_tests_cant": "dangling references show up only for particular histories, and not always then", "anchors": ["include/huira_impl/assets/model.ipp: set_all_bsdfs, get_material", "include/huira_impl/scene/scene.ipp: delete_primitive, delete_geometry, delete_model, prune_graph_references_"]}
{"id": "C128", "title": "Pixels cover the field of view and their powers are the powers received", "statement": "The solid angle of a pixel is that of the directions the camera projects into it, so that the pixels of the image together cover its field of view exactly once; multiplying a radiance by the pixel's power factor gives the power that radiance sends through the aperture into the pixel.", "quantifier": "every focal length, principal point, pixel pitch, resolution, handedness and pixel", "why_tests_cant": "a test compares a few pixels with a small angle estimate; the claim is an integral over the sphere", "anchors": ["include/huira_impl/cameras/camera_model.ipp: get_pixel_solid_angle_, compute_pixel_solid_angle_, get_projected_aperture_area, pixel_radiance_to_power"]}
{"id": "C129", "title": "FITS metadata come back", "statement": "Metadata within the documented limits, written with an image and read again, are the metadata written, completed by what the writer fills in (data range, saturation, unit); a keyword of the user never changes what the file says about its own layout.", "quantifier": "every metadata record, every image format, every number of write and read generations", "why_tests_cant": "round trip tests use short strings and round numbers; limits of cards, lost figures and accumulation over generations need other inputs", "anchors": ["include/huira/images/io/fits_metadata.hpp: FitsMetadata, has_wcs", "include/huira_impl/images/io/fits_io.ipp: write_fits_metadata, read_fits_metadata, write_image_fits"]}
{"id": "C130", "title": "The blur of a round aperture is its diffraction pattern", "statement": "The point spread function of a circular aperture of diameter D at focal length f gives, at every distance from the axis and every wavelength, the intensity of the Fraunhofer diffraction pattern of that hole (normalised to one on the axis): one at the centre, the same in every direction of the focal plane, first dark ring at 1.22 wavelength times f-number.", "quantifier": "every diameter, focal length, pixel pitch, wavelength and position", "why_tests_cant": "a test compares a few positions with tabulated values; the approximation of the Bessel function by rational functions and tails must hold for every argument", "anchors": ["include/huira_impl/cameras/psfs/airy_disk.ipp: AiryDisk, evaluate, bessel_j1_", "include/huira_impl/cameras/apertures/circular_aperture.ipp: CircularAperture::make_psf"]}
{"id": "C131", "title": "A normal map tilts the surface as painted", "statement": "A picture given to add_normal_texture and put on a material makes the shading normal, at every texture coordinate, the unit vector along the interpolated directions its colours stand for (2 colour - 1 in the frame of the surface), with the tilt multiplied by the normal factor; a flat picture or the factor zero changes nothing; there is a normal for every picture.", "quantifier": "every picture, size, texture coordinate, factor, material and surface frame", "why_tests_cant": "tests look at single pixels; interpolation between arbitrary pixels, wrapping and degenerate colours need all pictures and coordinates", "anchors": ["include/huira_impl/scene/scene.ipp: Scene::add_normal_texture", "include/huira_impl/images/image.ipp: Image::sample_bilinear", "include/huira_impl/materials/material.ipp: Material::evaluate"]}
{"id": "C132", "title": "get_parent returns the frame a node was made in", "statement": "For every node a user made, get_parent and get_parent_as return the frame it was made under, after every further history of calls; the root throws, a wrong type throws, and climbing arrives at the root.", "quantifier": "every history of calls, every node, every requested type", "why_tests_cant": "the search goes through the whole tree; trees and histories are unbounded", "anchors": ["include/huira_impl/scene/node.ipp: Node::get_parent, Node::get_parent_as", "include/huira_impl/scene/scene.ipp: find_node_shared_ptr_, find_node_in_tree_", "include/huira_impl/handles/scene/node_handle.ipp: NodeHandle::get_parent"]}
{"id": "C133", "title": "The printed graph shows the scene", "statement": "print_graph writes one line for the root and one for every other node, drawn below its parent with a bar for every ancestor that has a further sibling to come; from the text alone the tree, the kind and number of every node, the asset of every instance and the SPICE names can be read back.", "quantifier": "every scene a history of calls can produce, every name", "why_tests_cant": "tests compare one picture; that no two scenes have the same picture needs all trees", "anchors": ["include/huira_impl/scene/scene.ipp: Scene::print_graph, print_node_, print_node_details_", "include/huira/scene/scene_object.hpp: SceneObject::get_info"]}
{"id": "C134", "title": "The depth channel holds distances from the camera", "statement": "After rendering, the depth of every pixel is the distance from the camera to the nearest surface the pixel's samples see, and infinite if they see none.", "quantifier": "every scene, every number of bounces and samples, every outcome of the random numbers", "why_tests_cant": "a test renders a few scenes with opaque bodies; the error appears only behind surfaces a sample passes", "anchors": ["include/huira_impl/render/renderer.ipp: Renderer::path_trace_", "include/huira/render/frame_buffer.hpp: FrameBuffer::depth, clear"]}
{"id": "C135", "title": "Normals, albedo and ids describe what is seen", "statement": "After rendering, the camera normal of a pixel is the mean direction of the normals its samples see, the world normal is the same direction in world axes, the albedo is the mean albedo, and the geometry id tells different bodies apart.", "quantifier": "every scene, camera pose, sample count, and every pattern of dropped samples", "why_tests_cant": "tests use a camera without rotation and scenes without NaN samples; the claim is about all of them", "anchors": ["include/huira_impl/render/renderer.ipp: Renderer::path_trace_", "include/huira_impl/scene/scene_view.ipp: SceneView::SceneView, intersect", "include/huira/render/frame_buffer.hpp: FrameBuffer"]}
{"id": "C136", "title": "Bodies hide the point sources behind them", "statement": "A star or unresolved object whose image falls on the picture is drawn exactly if no body in the pixel it falls on is nearer than it.", "quantifier": "every scene, every position on the picture including its edges, every distance, with or without a depth channel", "why_tests_cant": "edge positions, sources in front of bodies and disabled channels are points of a continuum no test list covers", "anchors": ["include/huira_impl/render/renderer.ipp: Renderer::render_unresolved_, path_trace_", "include/huira_impl/images/image.ipp: Image::operator()(Pixel)"]}
{"id": "C137", "title": "Fully transparent surfaces are invisible", "statement": "A surface whose opacity is 0 everywhere and that has no medium of its own does not change the picture: a sample whose line of sight crosses such surfaces brings back the radiance of what is behind them, be it a lamp, a body or the background.", "quantifier": "every number and order of surfaces, open or closed, every distance, every outcome of the random numbers, every number of bins", "why_tests_cant": "a test renders a cut-out in front of a wall; the loss appears only for sheets in front of the background, where every sample becomes NaN", "anchors": ["include/huira_impl/render/renderer.ipp: Renderer::path_trace_", "include/huira/volumes/medium_stack.hpp: MediumStack::toggle", "include/huira_impl/scene/scene.ipp: Scene::Scene, add_primitive"]}
{"id": "C138", "title": "Black bodies obey the laws of thermal radiation", "statement": "black_body(T, steps) gives in every bin the radiance of Planck's law, with an error that falls as the square of the number of steps; the radiation of all wavelengths obeys the law of Stefan and Boltzmann, spectra of different temperatures Wien's displacement law, and new_sun_light has the brightness of the sun at the earth.", "quantifier": "every temperature, every set of bins, every number of steps", "why_tests_cant": "a test compares a few values with a table; convergence for every bin, the sum over all wavelengths and the scaling laws range over continua", "anchors": ["include/huira_impl/core/physics.ipp: plancks_law, black_body, linspace, integrate", "include/huira_impl/scene/scene.ipp: Scene::new_sun_light", "include/huira/core/constants.hpp"]}
{"id": "C139", "title": "A render works for every choice of channels and camera, and its pictures follow from the light received", "statement": "Whatever channels are enabled and however the camera is set up, render() refuses a frame buffer of another resolution and otherwise completes; the received power is the light of surfaces and point sources spread by the point-spread function, with the veiling glare last asked for, power is conserved, scenes superpose, the sensor response is the readout of that picture pixel by pixel, and nothing of earlier renders is left.", "quantifier": "every history of calls on the camera and the frame buffer, every scene, every sequence of renders", "why_tests_cant": "a test renders one set-up; the property ranges over all histories of settings and all scenes", "anchors": ["include/huira_impl/render/renderer.ipp: Renderer::render, path_trace_, render_unresolved_", "include/huira_impl/cameras/sensors/simple_sensor.ipp: SimpleSensor::readout", "include/huira_impl/cameras/camera_model.ipp: CameraModel::set_veiling_glare, set_psf, use_aperture_psf, delete_psf", "include/huira_impl/cameras/camera_handle.ipp", "include/huira/render/frame_buffer.hpp: FrameBuffer"]}
{"id": "C140", "title": "Point sources appear where a surface in the same direction would", "statement": "The light of a star or unresolved object is in the pixel whose camera rays have its direction; with a point-spread function, or out of focus, it is spread around the point its direction projects to.", "quantifier": "every camera, every direction in view, every sub-pixel position, PSF and blur", "why_tests_cant": "a test looks at a few positions; which pixel a source lands in depends on a continuum of sub-pixel positions", "anchors": ["include/huira_impl/render/renderer.ipp: Renderer::render_unresolved_, path_trace_", "include/huira_impl/cameras/camera_model.ipp: CameraModel::cast_ray, project_point", "include/huira_impl/cameras/psfs/psf.ipp: PSF::get_kernel, generate_polyphase_data_", "include/huira_impl/cameras/apertures/circular_aperture.ipp: rasterize_kernel_"]}
{"id": "C141", "title": "Python datetimes and times stand for the same moments", "statement": "A datetime object given to Python's Time becomes the moment it stands for (naive objects are in UTC) or raises; to_datetime gives back that moment as an object in UTC; to_utc_string always asks SPICE for UTC.", "quantifier": "every datetime object: every date, time of day, microsecond, and offset of the zone; every time", "why_tests_cant": "a test tries a few dates and zones; the text handed to SPICE depends on all fields, and the loss on the last digits", "anchors": ["bindings/python/include/huira/core/time_py.ipp: bind_time (Time(datetime), to_datetime)", "include/huira_impl/core/time.ipp: Time::Time(const std::string&), Time::to_iso_8601, Time::to_utc_string"]}
{"id": "C142", "title": "Images are values", "statement": "An image always has width times height pixels; a copy is independent of its original; fill, clear, sums, moves, channels and writes through at() change exactly the picture they name to exactly the picture expected; sums of different sizes, channels that do not exist and coordinates off the picture throw and change nothing.", "quantifier": "every program with any number of image variables: every sequence of constructions, copies, moves, writes and whole-image operations, all sizes and pixels", "why_tests_cant": "a test runs a few statements on small images; the property is about every sequence of statements and every size", "anchors": ["include/huira_impl/images/image.ipp: Image::Image, at, clear, fill, operator+, get_channel", "include/huira/images/image.hpp: Image (defaulted copy and move)"]}
{"id": "C143", "title": "Turning the sensor turns the picture", "statement": "After set_sensor_rotation(angle), every pixel of a view looks in the direction it looked in before, turned by that angle about the optical axis; objects (also inside models) and stars turn together, in every observation mode; a second setting replaces the first.", "quantifier": "every camera pose, angle, pixel, object, star and observation mode", "why_tests_cant": "a test compares one turned camera with one picture; the property is about every angle, pose and pixel", "anchors": ["include/huira_impl/scene/scene_view.ipp: SceneView::SceneView, traverse_and_collect_, traverse_model_graph_", "include/huira_impl/cameras/camera_model.ipp: CameraModel::sensor_rotation", "include/huira_impl/handles/camera_handle.ipp: set_sensor_rotation"]}
{"id": "C144", "title": "A view shows objects at their distances", "statement": "Every point of every object is, in a view, as far from the camera as in the world and in its direction, wherever in the scene graph the camera is attached.", "quantifier": "every pose of the camera's instance (rotation and scale), every object at any depth of models, every observation mode", "why_tests_cant": "continuum of poses; nested models of any depth", "anchors": ["include/huira_impl/scene/scene_view.ipp: SceneView::SceneView, traverse_and_collect_, traverse_model_graph_", "include/huira_impl/core/transform.ipp: Transform::inverse, operator*"]}
{"id": "C145", "title": "Objects and stars move together", "statement": "In every observation mode, a node that is in the direction of a star is shown in the direction in which the star is shown, however the camera moves.", "quantifier": "every camera velocity below that of light, every direction, distance and observation mode", "why_tests_cant": "continuum of velocities and directions", "anchors": ["include/huira_impl/scene/scene_view.ipp: SceneView::SceneView (stars), traverse_and_collect_", "include/huira_impl/scene/node.ipp: get_apparent_transform", "include/huira_impl/core/physics.ipp: compute_aberrated_direction"]}
{"id": "C146", "title": "Ids identify objects", "statement": "Different living objects of a kind have different ids (id()), which count the objects made and are not given out again.", "quantifier": "every history of constructions, moves and destructions, on any number of threads", "why_tests_cant": "every history and every interleaving of threads", "anchors": ["include/huira/scene/scene_object.hpp: SceneObject::SceneObject, id"]}
{"id": "C147", "title": "A view says what it will not show", "statement": "Creating a view logs a warning for exactly those primitives, lights and unresolved objects of the scene that are nowhere in the scene graph, neither in the scene nor in a model at any depth.", "quantifier": "every scene graph with models nested to any depth, every set of registered objects", "why_tests_cant": "unbounded graphs and nesting", "anchors": ["include/huira_impl/scene/scene_view.ipp: SceneView::SceneView"]}
{"id": "C148", "title": "Batches of rays are rays", "statement": "intersect and resolve_hits on vectors give, element by element and for every schedule of the threads, what the calls on single rays and hits give; misses give a blank interaction.", "quantifier": "every batch and every schedule", "why_tests_cant": "every order in which threads may process the elements", "anchors": ["include/huira_impl/scene/scene_view.ipp: SceneView::intersect (batch), resolve_hits"]}
{"id": "C149", "title": "Readouts are repeatable", "statement": "Every value of a sensor readout is the charge of its own pixel with noise of its own, in [0,1], and reading out the same picture with the same sensor settings gives the same response again.", "quantifier": "every picture, sensor configuration, exposure, C++ library and every sequence of earlier readouts in the process", "why_tests_cant": "all pictures and all histories of a process", "anchors": ["include/huira_impl/cameras/sensors/simple_sensor.ipp: SimpleSensor::readout, noise_and_adc"]}
{"id": "C150", "title": "Scenes in one process do not disturb each other's names", "statement": "With any number of scenes, an object that lives in a scene has a name under which that scene finds it; a call on one scene changes no name, lookup or object of another.", "quantifier": "every history of creations, renames, deletions and lookups on any number of scenes, with any handles", "why_tests_cant": "every interleaving of calls on every number of scenes", "anchors": ["include/huira_impl/scene/scene.ipp: set_name, delete_*, get_*", "include/huira_impl/scene/name_registry.ipp: NameRegistry", "include/huira/scene/scene_object.hpp: SceneObject"]}
{"id": "C151", "title": "Nothing a scene shows disappears behind its back", "statement": "With any number of scenes, every instance refers to a primitive and every primitive to a geometry that still exists in some scene; a deletion asked of one scene changes no other.", "quantifier": "every history of adding, instantiating and deleting geometries and primitives in any number of scenes, with any handles", "why_tests_cant": "every interleaving of calls on every number of scenes", "anchors": ["include/huira_impl/scene/scene.ipp: add_primitive, delete_primitive, delete_geometry", "include/huira_impl/handles/scene/frame_handle.ipp: new_instance", "include/huira_impl/handles/handle.ipp: Handle::valid"]}
{"id": "C152", "title": "Reflecting objects are lit by the sun they were given", "statement": "Every render of a scene lights each unresolved sphere and asteroid shown in it by an instance of the very light it was created with, which still exists; creating one is refused when the instance holds no light or a number is unusable, and a refused call leaves nothing behind.", "quantifier": "every history of creating, instancing and deleting lights and unresolved objects in any number of scenes, every placement of new lights by the allocator, every order in which a view lists its lights", "why_tests_cant": "every history and every reuse of addresses by the allocator", "anchors": ["include/huira_impl/assets/unresolved/unresolved_sphere.ipp: UnresolvedLambertianSphere, resolve_irradiance", "include/huira_impl/assets/unresolved/unresolved_asteroid.ipp: UnresolvedAsteroid, resolve_irradiance", "include/huira_impl/scene/scene.ipp: new_unresolved_sphere, new_unresolved_asteroid, delete_light, delete_unresolved_object"]}
{"id": "C153", "title": "A crash leaves its report and ends the program", "statement": "When a program crashes, the report says so and names exactly the scopes around the crash point, outermost first, whatever was logged, thrown and caught before; an uncaught exception's message is in the report; the path a dump returns is that of a file with the whole report, and the empty string means nothing was written; a fatal signal ends the process, whether the crash handler is enabled or not.", "quantifier": "every program built from nested scopes, logger calls, exceptions, handlers and crash points, every buffer size and level, every file system, every origin of a signal", "why_tests_cant": "every program, history and crash point", "anchors": ["include/huira_impl/util/logger.ipp: handle_crash, handle_terminate, dump_to_file, enable_crash_handler", "include/huira/util/logger.hpp: ScopeLogger, HUIRA_TRACE_SCOPE"]}
{"id": "C154", "title": "Formulas with units mean what they say", "statement": "A formula of any size over quantities in any units, with conversions, sums in mixed units, products, quotients, reciprocals, multiples and plain numbers taken from dimensionless quantities, has exactly the physical value it says; comparisons compare what the formulas say; the answer in a unit does not depend on the units used on the way.", "quantifier": "every formula, every choice of units for every part of it", "why_tests_cant": "every formula of every size", "anchors": ["include/huira/units/quantity.hpp: Quantity, Quantity<Dimensionless>, operators", "include/huira_impl/units/quantity.ipp: to_si, value"]}
{"id": "C155", "title": "Rotations survive rounding", "statement": "However long a chain of constructions, products, inverses and conversions between float and double made a rotation, and however every operation rounds: no call throws, what is stored is a rotation up to a few rounding errors, its error against the exact rotation grows no faster than the number of calls, and inverse() undoes it up to a few rounding errors.", "quantifier": "every history of rotation calls of every length and shape, every rounding of every arithmetic operation", "why_tests_cant": "chains of every length and all roundings", "anchors": ["include/huira_impl/core/rotation.ipp: set_matrix_, orthonormalize_, operator*, operator*=, inverse, operator Rotation<U>, from_local_to_parent, from_basis_vectors"]}
{"id": "C156", "title": "Points of light are blurred as the camera is set up", "statement": "After any history of camera settings, the disc an unfocused point of light is spread over and the point-spread function in use are those of the current focal length, aperture, pixel pitch, focus distance and of the function last asked for.", "quantifier": "every accepted history of focal length, f-stop, aperture, sensor, intrinsics, focus and point-spread-function calls", "why_tests_cant": "all interleavings of settings", "anchors": ["include/huira_impl/cameras/camera_model.ipp: set_focal_length, set_fstop, set_aperture, set_psf, use_aperture_psf, delete_psf, set_focus_distance, set_diopters, set_intrinsics, configure_sensor_from_pitch", "include/huira_impl/cameras/apertures/aperture.ipp: build_defocus_kernel", "include/huira_impl/handles/camera_handle.ipp: use_aperture_psf"]}
{"id": "C157", "title": "World positions in deep scene trees survive rounding", "statement": "Computed in floating point, composing the transforms of nested frames never throws and gives every frame a world position whose error is at most a constant times the number of rotations on the way times the unit of rounding times the distances on the way; and so does the place of an object as seen by an observer.", "quantifier": "every tree depth, every position and rotation of every frame, every rounding of relative error up to 1e-7, every number of rotation calls (up to about 1/(3000 u))", "why_tests_cant": "the error of every chain of operations under every rounding", "anchors": ["include/huira_impl/core/transform.ipp: operator*, inverse", "include/huira_impl/core/rotation.ipp: operator*, inverse", "include/huira_impl/scene/node.ipp: get_ssb_transform_", "include/huira_impl/scene/scene_view.ipp: SceneView"]}
{"id": "C158", "title": "Views live as long as they are needed, and no longer", "statement": "Scenes, geometries and views can be dropped, deleted, copied, moved and assigned in any order: every view that exists can be rendered, no freed memory is used or freed twice, and what nobody holds any more is freed.", "quantifier": "every history of making, dropping, copying, moving and assigning views, dropping scenes and deleting geometries", "why_tests_cant": "all interleavings of lifetimes", "anchors": ["include/huira/scene/scene_view.hpp: SceneView", "include/huira_impl/scene/scene_view.ipp: SceneView, ~SceneView, build_tlas_", "include/huira/geometry/geometry.hpp: blas", "include/huira/scene/embree_device.hpp", "include/huira_impl/geometry/mesh.ipp: build_blas_", "include/huira_impl/scene/scene.ipp: delete_geometry"]}
{"id": "C159", "title": "Views of one scene can be made in several threads", "statement": "Threads making views of one scene, which they only read, get views of what they asked for under every schedule: no thread uses an acceleration structure another has freed.", "quantifier": "every number of threads, every list of geometries each shows, every schedule", "why_tests_cant": "races depend on the schedule", "anchors": ["include/huira/geometry/geometry.hpp: blas", "include/huira_impl/geometry/mesh.ipp: build_blas_", "include/huira_impl/geometry/ellipsoid.ipp: build_blas_", "include/huira_impl/scene/scene_view.ipp: build_tlas_"]}
{"id": "C160", "title": "A view shows the scene as it was when the view was made", "statement": "Whatever is moved, added, deleted or set after a view was made, and whatever other views are made, rendering the view shows what it showed at first.", "quantifier": "every scene, every history of calls on scene, camera, material and point-source handles and of further views", "why_tests_cant": "all histories between making and rendering a view", "anchors": ["include/huira_impl/scene/scene_view.ipp: SceneView", "include/huira/scene/scene_view.hpp: SceneView", "include/huira_impl/assets/unresolved/unresolved_object.ipp: set_irradiance, get_irradiance, resolve_irradiance", "include/huira_impl/render/renderer.ipp: render", "include/huira_impl/handles/camera_handle.ipp", "include/huira_impl/scene/scene.ipp: set_background_radiance"]}
{"id": "C161", "title": "A resolution is a value, by either of its names", "statement": "Through every history of making, copying, assigning, writing and destroying resolutions, x and y are the same numbers as width and height of that resolution, and nothing done to one resolution, its original or its copies changes or invalidates another.", "quantifier": "every history of construction, copy, assignment, writes by either name and destruction, with memory used again", "why_tests_cant": "aliasing over all histories, which tests sample only along one path", "anchors": ["include/huira/core/types.hpp: Resolution"]}
{"id": "C162", "title": "Arithmetic with a resolution is componentwise in the operand's type", "statement": "Each of res*v, v*res, res*s, s*res, res/v, v/res, res/s and s/res applies the operation to its left and right operand per component, in the operand's floating type.", "quantifier": "every resolution, operand and floating type", "why_tests_cant": "all values and types", "anchors": ["include/huira/core/types.hpp: Resolution operators * and /"]}
{"id": "C163", "title": "The printed lists show the assets of the scene", "statement": "After every history, print_meshes, print_lights, print_unresolved_objects, print_camera_models and print_models write a line with the number of these assets in the scene, then a line for each with its class, number and name, in the order they were added, from which they can be read back; print_contents gives the numbers.", "quantifier": "every history of adding, renaming and deleting assets, every name", "why_tests_cant": "all histories and names", "anchors": ["include/huira_impl/scene/scene.ipp: print_meshes, print_lights, print_unresolved_objects, print_camera_models, print_models, print_contents", "include/huira/scene/scene_object.hpp: get_info", "include/huira_impl/scene/name_registry.ipp"]}
{"id": "C164", "title": "Pruning removes exactly the assets the scene graph does not show", "statement": "After prune_unreferenced_assets, an asset is in the scene exactly if it was and the scene graph shows it, directly or through other assets.", "quantifier": "every scene, every graph of references between assets", "why_tests_cant": "reachability in every graph of references", "anchors": ["include/huira_impl/scene/scene.ipp: prune_unreferenced_assets", "bindings/python/include/huira/scene/scene_py.ipp: prune_unreferenced_assets"]}
{"id": "C165", "title": "Every function of the Python interface can be called", "statement": "For each bound function, property and constructor of rays, hits, interactions, scene views, cameras, nodes, vectors and images there are Python objects it accepts and whose result Python receives.", "quantifier": "every function of these classes, every choice of arguments and every result", "why_tests_cant": "all Python objects, nested to any depth, and all results", "anchors": ["bindings/python/include/huira/render/ray_py.ipp", "bindings/python/include/huira/render/interaction_py.ipp", "bindings/python/include/huira/scene/scene_view_py.ipp", "bindings/python/include/huira/handles/camera_handle_py.ipp", "bindings/python/include/huira/handles/scene/node_handle_py.ipp", "bindings/python/include/huira/core/types_py.ipp"]}
{"id": "C166", "title": "A Python script can trace any ray", "statement": "For every ray, some Python script holds that ray and can give it to intersect.", "quantifier": "every ray, every script", "why_tests_cant": "all scripts of any length", "anchors": ["bindings/python/include/huira/render/ray_py.ipp", "bindings/python/include/huira/scene/scene_view_py.ipp: intersect, intersect_batch", "include/huira/geometry/ray.hpp: Ray"]}
{"id": "C167", "title": "The text of an image in Python names its class and size", "statement": "repr of an image of any class is the class's name, the width, the height and the number of channels, whenever it is called.", "quantifier": "every image class the module binds, every image, every history of the process after the import", "why_tests_cant": "all histories of allocations after the import", "anchors": ["bindings/python/include/huira/images/image_py.ipp: bind_image, __repr__", "bindings/python/src/huira_module.cpp: bind_spectral"]}
{"id": "C168", "title": "A sensor made from a configuration obeys the rules of its setters", "statement": "A sensor can be made from exactly the configurations whose values the setters allow, and then has them.", "quantifier": "every configuration, with NaN and infinities, every later history of setter calls", "why_tests_cant": "all configurations and histories", "anchors": ["include/huira/cameras/sensors/sensor_model.hpp: SensorConfig, SensorModel", "include/huira_impl/cameras/sensors/sensor_model.ipp: SensorModel::SensorModel", "include/huira/cameras/sensors/simple_sensor.hpp: SimpleSensor", "include/huira_impl/cameras/camera_model.ipp: set_sensor"]}
{"id": "C169", "title": "Converting a picture between linear and sRGB changes its colours and nothing else", "statement": "linear_to_srgb and srgb_to_linear give a picture of the same size, transparency, depth and exponent in which every channel of every pixel is converted.", "quantifier": "every picture of every size, every channel count, in C++ and Python", "why_tests_cant": "all sizes and all pixels", "anchors": ["include/huira/images/io/color_space.hpp: linear_to_srgb, srgb_to_linear", "include/huira/images/image.hpp: ImageBundle", "bindings/python/include/huira/images/image_py.ipp: linear_to_srgb, srgb_to_linear"]}
{"id": "C170", "title": "The help of a command shows its options as they are typed", "statement": "The help has a line for each argument but ignore_rest that shows it as it is typed, and all descriptions start in one column, four blanks or more behind.", "quantifier": "every list of arguments a command may have, every name, flag and description", "why_tests_cant": "all argument lists and texts", "anchors": ["apps/huira_cli/compact_output.hpp: CompactOutput", "apps/huira_cli/commands/fetch_tycho2.cpp: run_fetch", "apps/huira_cli/commands/process_tycho2.cpp: run_process"]}
