# Formal model of aslam_cv2 in Lean 4

## What this is

`/verif/lean` is a Lean 4.33 project with a hand-written executable model of parts of
`/repo` (ethz-asl/aslam_cv2, read as text, never built) and theorems about that model.
`properties.jsonl` lists the properties in English, `MANIFEST.json` maps each one to
theorems, `seeded/LOG.jsonl` records mutation tests of the theorems.

## Layout

* `Verif/<Area>/Model.lean` – the model. Every definition cites the file and lines it models
  and states its simplifications.
* `Verif/<Area>/Lemmas.lean` – helper lemmas (where needed).
* `Verif/<Area>/Props.lean` – the property theorems, their independent specifications, and a
  concrete non-trivial `example` for the hypotheses of each.

## Conventions

* **Outcomes.** A glog `CHECK` failure is the distinct outcome `abort`, undefined behaviour of
  C++ (out-of-bounds access, use of uninitialised memory, iterator invalidation, signed overflow)
  is the distinct outcome `ub`; see `Verif/Base/Outcome.lean`. Nothing is totalised silently.
* **Numbers.** Integers are `Nat`/`Int` where the property is not about wrap-around and
  `BitVec`/explicit moduli where it is. `double` arithmetic is modelled by exact arithmetic over
  `ℚ`, a field, or `ℝ`; rounding is *not* modelled. Every file says which.
* **Concurrency.** Threads are interleaved at the granularity of critical sections of the one
  mutex that protects the state (plus every unlocked access as its own step). Condition variables
  are explicit sets of sleepers; `notify_one` wakes an arbitrary sleeper, spurious wake-ups are
  always possible. Memory-model effects below the mutex are not modelled.
* **Refuted properties.** Where the code violates a property the negation is proved with a concrete
  witness (theorem name suffix `_refuted`), and what does hold is proved with suffix `_partial`.

## Trusted base

* Lean's kernel, and the three standard axioms `propext`, `Classical.choice`, `Quot.sound`.
  No axioms of our own, no `sorry`, no `native_decide`, no `bv_decide`.
* The faithfulness of the model to the cited source lines (checked by reading only).
* The behaviour of the C++ standard library, Eigen, OpenCV, glog, yaml-cpp, opengv as described in the
  comments of the definitions that use them.

## Plan per property

| id | what is modelled | how it is proved |
|----|------------------|------------------|
| C01–C06 | `ThreadPool` as a transition system: queue, guards, counters, worker program counters, sleepers | inductive invariant over all steps; C05 race with `stop()` refuted by a trace, drained-at-join proved as partial |
| C07–C10 | both reader/writer mutexes as transition systems, any number of threads | inductive invariants relating counters to the thread states; `isInUse` of the reader-first variant refuted |
| C11–C14 | header/byte encoders and decoders of channel-serialization over byte lists | round trip by induction; over-read of the vector decoder and uint64 string form refuted |
| C15 | channel group as association map with typed values, reference sharing modelled by a heap | refinement to a finite map |
| C16–C20 | grid as list of cells over exact rationals | invariants by induction over operations; C19 abort refuted |
| C21, C22 | erase loops, sort + resize helpers over lists | list induction; duplicates are `ub`/`abort` |
| C23–C26 | ids as two 64 bit words / 16 bytes, hex printing and stoul parsing | round trips, order laws, injectivity |
| C27 | conversions over `Int`, printing over digit strings | arithmetic; negative timestamps refuted |
| C28–C31 | n-pipeline maps keyed by timestamp, drop logic, blocking calls as transition system | invariants over histories; dropped complete frame and lost wake-up refuted by traces |
| C32–C35 | per-keypoint channels and descriptor blocks as lists, frames with heap references | list induction; misaligned 3D positions refuted |
| C36 | n-frame timestamps | fold lemma; all-unset minimum refuted |
| C37, C38 | `applyMatchesToFrames` as a fold over matches with id provider | fold invariants; 32-bit truncation refuted |
| C39–C41 | gyro matcher bookkeeping with the descriptor score as parameter | loop invariants; last image row and order dependence refuted |
| C42 | candidate selection and match composition of the gyro tracker | list/permutation reasoning |
| C43 | ring buffer accumulator over a field | refinement to the list of all samples |
| C44, C45 | registry tag → handle → accumulator, timer objects | refinement to a map of sample lists |
| C46 | SSSE3 algorithm on byte lanes | lane-wise arithmetic mod 256; 32-word overflow refuted |
| C47 | bit operations on byte arrays, binary mean | bit lemmas, majority argument |
| C48 | rig as list of (id, camera) plus id→index map | invariant over histories; stale map after `cloneRigWithoutDistortion` refuted |
| C49–C52 | pinhole / unified / homogeneous projection over ℝ (or a field) | field algebra, `HasDerivAt`; `project4` Jacobian sign refuted |
| C53, C54 | distortion models over ℝ | `HasDerivAt`, trigonometric identities; centre special cases refuted |
| C55, C56 | normal equations of the bearing-vector triangulation; data assembly loops | linear algebra over ℝ; missing `++index` refuted, unsigned rank test refuted |
| C57, C58 | AprilGrid index arithmetic, observation lookup | div/mod arithmetic; lookup abort refuted |
| C59 | circle intersection / fit over ℝ | algebra |
| C60 | partition loop with RANSAC inlier set as parameter | list induction |
| C61 | the same lock models, waiting readers and writers | traces for both locks |
| C62 | per-keypoint channels and `clearKeypointChannels` | case analysis over the channels |
| C63 | a heap of frames, n-frames and cameras; all operations of `VisualNFrame` | invariant over operations under a stated discipline of the caller; each exception refuted by a trace |
| C64 | medians and deviations of descriptors over exact numbers | algebra, list induction |
| C65 | descriptor memory as a heap with owners | invariant over operations; use after free refuted by traces |
| C66 | Newton iteration of `undistort` over ℝ | the step is proved to be the Newton step; stopping and divergence by cases |
| C67–C69 | unified and lidar projections, masks and the vectorised calls over ℝ | `HasDerivAt`, algebra, list induction |
| C70 | one Gauss-Newton step and the loop over ℝ | normal equations, fixed points |
| C71 | the tag detector's post-processing with the detector as a parameter | list induction |
| C72 | sums over homographies and the closed form over ℝ | linear algebra |
| C73, C76 | pose estimation with opengv as a parameter | algebra, data flow |
| C74 | block rotations of covariances | matrix algebra |
| C75, C77 | keypoint prediction and insertion | list induction |
| C78, C79 | output cameras and maps of undistorters | algebra over ℝ, list induction |
| C80, C81 | pipelines and the ownership of detectors | data flow, traces |
| C82 | feature tracks | list induction |
| C83 | standard deviation over ℝ | algebra |
| C84–C87 | YAML nodes as trees; cameras, rigs and their equality | round trips by induction; what is lost is refuted |
| C88, C89 | rolling shutter delays, masks | arithmetic with wrap-around |
| C90 | FED cycles over ℝ, primes, reordering | sums of cosines, permutations |
| C91, C92 | diffusion steps and AOS over ℝ on images of any size | discrete maximum principles, energy, Thomas algorithm by induction |
| C93–C95 | contrast factor, extrema, refinement | list and image induction |
| C96 | all twelve descriptors over a field with exact square roots | sums over samples |
| C97, C98 | filters and intersection of segments | list induction, algebra |
| C99–C107 | the line segment detector over ℝ, function by function; `fastAtan2` a parameter | loop invariants, geometry, series |
| C108 | numerical Jacobians over ℝ | loop invariant, Taylor bounds |
| C109 | image comparison with memory layout of `cv::Mat` | list induction |
| C110 | poses of test rigs over ℚ, rigs in the model of C48 | algebra |
| C111 | guesses from circles and their median over ℝ | geometry of circles, order statistics |
| C112 | cameras as back-projection and projection over ℝ, results and failures explicit | unfolding, the inverse theorems of C05, lists |
| C113 | the generators with the draws as parameters, the loop with its tries, over ℝ | the inverse theorems, induction over the tries, convexity |
| C114 | levels as a list, kernels, `sepFilter2D` with reflected borders, the determinant, over ℝ | sums over sparse kernels, monotone powers, evaluation on quadratic polynomials |
| C115 | samples, windows and the loop over the windows, over ℝ, the arc tangent as a parameter | invariant of the loop over the windows, sums over lists, polar coordinates |
| C116 | smoothing, contrast factor, conductivities, time steps and diffusion composed into the creation of the scale space, over ℝ | induction over the levels with the theorems of C90 to C93, linearity of the filters |
| C117 | the functions as loops over lists of points, lines and characters, over ℝ; the estimators and `sscanf` as parameters | induction over the lists, homographies as matrices acting on homogeneous points |
| C118 | images as functions of pixels, the pixels of a line as a parameter | finite sets of pixels and their symmetric difference |
| C119 | an image as its background and the shapes drawn on it, over the model of the frames | induction over the matches with the theorems of the frames |
| C120 | the models of observations and of the pose estimator composed, the RANSAC as a parameter | the theorems of both composed; a RANSAC that is exact for exact data as a hypothesis |
| C121 | cameras as records with the class, the type member and an optional distortion object; the constructors, factories, setters, copies and comparison as functions with a step function for changes | decision logic against an independent description of good parameters; induction over the changes |
| C122 | VisualFrame/Access: channel names written down function by function, typed channel group, `step`/`run` over calls | refinement to nine slots by induction over the calls; index check cut to 32 bits and null pointers refuted |
| C123 | Yaml/File: disks as maps from names to texts; operating system and yaml-cpp as parameters | round trips from C84-C86; induction over the writes; refutations by surroundings that fail |
| C124 | Memory/Hash: the loop over 64-bit words; hash of elements as a parameter; bucket tables | induction over the elements; refinement of bucket tables to association lists |
| C125 | Memory/Unique: a heap of blocks with counters, pointer variables with offset and static type | invariant by induction over the calls; refutations for throwing constructors and second base classes |
| C126 | HashId/Unique: messages as lists of words, the printed form from the hexadecimal string, hashes of strings and random numbers as parameters | round trips from the words of an id; the printed form determined by four bytes; refutation by two ids made from integers |
| C127 | Yaml/SensorLife: the sensors of a program as a state machine; reading returns the sensor also when it throws | specification of reading from the node; invariant by induction over programs without throwing reads; refutation by a malformed id |
| C128 | `Kaze/Compute.lean`: the twelve branches of Compute_Descriptors as a table (family, upright, extended, columns, whether the orientation is computed), and the loop as a list of events (orient i, describe i) on a state of keypoints and rows; the descriptors and the orientation are those of C96 and C115. | A schedule is a permutation of the events of the loop that keeps the two events of a keypoint in order. By induction over the events, keypoint and row i depend only on the events about i; in every schedule these are the loop body. Levels out of range: refuted, undefined behaviour. |
| C129 | `Undistort/Make.lean`: cameras with id, line delay, mask, size, projection and distortion; newCam, buildMaps, construct, createMapped, createToPinhole on top of the camera matrix and the map entries of C78 and C79; images with one channel, bilinear interpolation in fixed point as cv::remap does it, processImage. The product of a float and an integer, rounding and the generated id are parameters. | Case analysis for the result of creation and constructor; interpolation against the exact blend, range, monotonicity; the place of a pixel from map_pinhole_partial and the fixed-point error. Refuted: scales that leave one column, maps of float pairs, null cameras, black last row and column for cameras without distortion, and the size in single against double precision (nearest number of 24 bits, proved for 0.7 times 640). |
| C130 | `FeatureTrack/Life.lean`: memory with frames and n-frames by address, owners (handles, slots, identifiers), one function per call, freeing of what has no owner after each call; references to columns name the piece of memory they point into. | Invariant (everything owned is alive) by induction over programs, its converse (no leaks), totality of all calls and questions under the invariant, stability of values and references by induction over programs that leave slot and columns alone. Refuted by programs: identifiers read other keypoints after a frame is replaced, abort after clearing, have no descriptor, give references that dangle. |
| C131 | `Statistics/Report.lean`: conversion of durations to text (quotients rounded to nearest, `int` conversion, `fmod`, `%02d`, `%09.6f`), tags with the width of their column through lookups and resets, rows, headings and YAML files as lines. | `Floor.lean`: the integer part of a rounded quotient is that of the quotient (doubles below 2^53), so hours and minutes are exact; text to duration by cutting at colons; tags by induction over histories; rows by position; files through an independent reader of entries. Refuted: 60 seconds, durations beyond `int`, heading out of line, equal labels. |
| C132 | `VisualPipeline/Owners.lean`: objects on the heap with what they were made with, counters of smart pointers, members of pipelines; `reset(new …)` makes one counter, `reset(create(…).get())` makes a second counter for an object that a temporary `cv::Ptr` owns. | Invariant (pointers of pipelines other than FREAK are counted, their objects alive, no object with two counters, no leak; members of FREAK pipelines lead to objects that are gone) by induction over programs, through a frame relation on heaps; refinement to a specification that only keeps the settings. Refuted: every use of a FREAK pipeline. |
| C133 | `Camera/Jets.lean`: the templates over a class of scalars, with an instance for real numbers and one for jets (a number and optional derivatives: none if not finite, such as those of the norm at zero). | A jet stands for a function at a point if it has its value and its Fréchet derivative. Each operation keeps this; hence the whole projection does, by composition in each branch and continuity of the conditions. With real numbers the template equals the model of the virtual function (C53, C55). Refuted on the circle where the formula changes. |
| C134 | `RWLock/Scoped.lean`: scoped locks as objects with an owner and a place at the mutex of C07; a thread in a constructor or destructor does nothing else. | Invariant: locks and places in use belong to each other one to one, and the place of a lock is where a lock of its class can be. Hence the mutex is always in a state of C07 and its theorems carry over. The deadlocks are invariants of everything that follows. |
| C135 | `Printing/Model.lean`: a stream is its text, format and width; texts of identifiers and of floating-point numbers are given, the latter as a function of the format. | The text is given line by line by a separate list of lines; lines without line breaks are read back from the text, and the columns of the table from the end of the row. |
| C136 | `Target/File.lean`: TargetConfiguration with its default and fromYaml on nodes (those of C84), in the order of its checks; reading the uninitialised spacing is undefined behaviour. | Exact characterisation of the files that are accepted and of what is returned, by cases over what each key gives; round trip and target from it. |
| C137 | `NPipeline/Make.lean`: the checks of the constructor on pointers to cameras and rigs; the part of `work` that makes a frame and puts it into an n-frame, by the calls of C35 and C63; the test pipeline. | Exact characterisation of what is accepted; invariant over sequences of jobs that frames are in the places of their cameras, which is what setFrame checks. |
| C138 | `TestRig/Random.lean`: setRandom on the rigs of C48, with any rounding that is monotone and keeps small integers; `VisualFrame/Test.lean`: the test frame and n-frame by the calls of C35, its channels as in C33. | Bounds by monotonicity of rounding; agreement of ids as in C48; induction over the frames. |
| C139 | The distortion models and Newton iteration of C53 and C66, over ℝ. | Radial-tangential: exact remainder of the linear approximation, bounds in complex numbers, error contracts quadratically and the iterates stay in the disc (induction over the rounds); existence of preimages by the contraction principle. Equidistant: the iteration stays on the ray and is monotone as the growth is; mean value theorem. |
| C140 | The constructor, inputToGridCoordinates and addPointUnconditional of C16 with the quotients rounded by any function to a nearest double (Base/Double). | Rounding to nearest keeps the order; the gap to the next double is compared with half the gap of the rounded quotient, so that no quotient is rounded over a border that is itself a double. Concrete doubles for the failures. |
| C141 | All queries as functions of the collector of C44, Timing::GetHz separately (it is computed in another way). | The invariant of C44 gives the samples and the times between them; the theorems on the accumulator (C43) give the figures; the times between samples telescope. |
| C142 | Both formulas of log_gamma and the choice between them with the coefficients of the code, over exact reals; nfa as for C105, with this log_gamma instead of a parameter. | Bounds of the remainder of Stirling's series for all factorials, by telescoping; the series of sinh and of the logarithm for the correction of Windschitl; for the formula of Lanczos, which is used for 0! to 14!, each value is the logarithm of one rational number, compared with a power of e. |
| C143 | Threads that run lists of calls; a call takes its mutexes one by one in the order of the code, reads the groups, writes what it makes of them, and lets go of the mutexes, with steps of other threads in between. The setters of frames are the three calls they consist of. References into a group are used without a mutex, operator= takes none. | An invariant over all interleavings (who owns which mutex, what was read is still so) gives linearizability and exclusion; a rank on the groups gives freedom from deadlock, a measure gives termination; a second invariant follows the setters. The failures are reached by schedules that are given. |
| C144 | The state machine of C31: blocking calls, workers, spurious wake-ups and shutdown interleave arbitrarily. | An invariant that sleepers, and threads about to sleep, have to wait; a measure for the actions left; a second invariant for calls that begin after shutdown. The limit is refuted by runs of every length. |
| C145 | The n-camera pipeline of C28–C30 run on images with a trigger and a camera, together with the thread pool of C01–C06. | An invariant by induction over the images: the n-frames in progress, ready and taken are those of the triggers so far; at most three are in progress, so nothing is cleaned up. One worker is shown to finish in submission order. Two workers refute the claim. |
| C146 | The track manager of C37/C38, run on arbitrary sequences of calls. | The keypoints with one id are shown to be exactly the classes of the equivalence closure of all matches, by an invariant over every single match. The last sentence is refuted. |
| C147 | `getOccupancyMask` on the grid of C16–C18: images as functions of row and column, filled rectangles, filled circles as a parameter with two laws. | Painting is shown to set exactly the union of all shapes; with cells of whole pixels rectangles are shown to be exactly the pixels of a cell. Fractional cells and radii are refuted by examples. |
| C148 | `operator==` on the memory of C65, combined with the bit counting of C63/C64. | The comparison is computed for every pair of references in order; the metric laws follow from the distance as a number of positions that differ. Trailing bytes and references without bytes are refuted by examples. |
| C149 | `triangulateFeatureTrack` from keypoints to landmark, composed of the back-projections of C49, C52 and C54 and the solver of C55. | The normalised measurement of a projected point is its direction, so the solver of C55 sees the landmark. Rigs with several cameras and landmarks seen at a right angle to the axis are refuted. |
| C150 | The matcher of C40 and C41 as a whole: windows, search, ratio test, bookkeeping of matches. | Invariant of the search for one keypoint: the counterpart is the best as soon as it is visited, and the second best always passes the ratio test. Invariant over the keypoints: the pairs are the true matches of those visited, and nothing is recorded for other keypoints of frame k+1. |
| C151 | `GyroTracker::track` without optical flow and `SimpleTrackManager::applyMatchesToFrames`, frame after frame, composed of the models of C150 and C146, with the checks for track ids. | By C150 every call gets the true matches, so the chains of matches of C146 are chains of keypoints of one landmark; both directions by induction. |
| C152 | `predictKeypointsByRotation` of C75 with the pinhole camera of C49, seen from the points instead of the keypoints. | Back-projection gives the point up to its depth, which the turn and the projection ignore; the parallax is algebra. |
| C153 | `pairwiseEuclidianDistances` with its two loops over a result of given size, in the arithmetic of `unsigned char` that the types prescribe. | Induction over both loops with the filled part as invariant; squares modulo 256 by congruence; places by the closed formula. |
| C154 | `Save_Scale_Space` and `Save_Detector_Responses` over levels of exact values and files as a map from names, with `convert_scale`, rounding half to even, saturation and the names from `sprintf`. | Induction over the levels with injectivity of the names; scaling is affine with the least and largest value as ends, hence idempotent. |
| C155 | `track` and `applyMatchesToFrames` in a loop over frames: the presence checks for track ids, the ids read from the frame, the keypoints added with id -1, and the ids written. | Invariant by induction over the frames: the tracker is in a state reached by calls on successive frames (C42), frames to come have ids -1, ids are issued and distinct; each step composes C42 with the theorems on the track manager. |

Every property is expressible in the model. `AXIOMS.md` lists the axioms of every theorem of the manifest,
`REFUTED.md` what the code was found to do against its documentation.

## What is modelled and what is not

Not modelled anywhere: rounding and overflow of `float`/`double` (except where a file says so: `Verif/Base/Double.lean`
for conversions), the fairness of the scheduler and the memory model below mutexes, memory exhaustion, the insides
of Eigen, OpenCV, opengv, yaml-cpp, glog, gflags, BRISK/FREAK and the AprilTag detector (their results are
parameters with stated laws), text written to logs and streams (except ids, times and YAML nodes), which
pixels OpenCV sets when it draws a shape.

| source | modelled in | not modelled |
|--------|-------------|--------------|
| common: `thread-pool.*` | `ThreadPool` | the callable's own exceptions beyond the future |
| common: `reader-writer-lock.*`, `reader-first-reader-writer-lock.*` | `RWLock` | copying locks |
| common: `channel*.h/.cc`, `channel-serialization.*` | `Channels`, `Serialization` | macros of `channel-declaration.h` beyond the functions they define |
| common: `occupancy-grid*` | `OccupancyGrid` | – |
| common: `hash-id.*`, `unique-id.*` | `HashId` | hashing into `std::unordered_map` beyond consistency |
| common: `time.h`, `timer.*`, `statistics*`, `accumulator.h` | `Time`, `Timer`, `Statistics`, `Accumulator` | printed tables (`timer.cc` 172-262, `statistics.cc` printing), files |
| common: `hamming*`, `descriptor-utils.h`, `feature-descriptor-ref*` | `Hamming`, `Descriptor`, `DescriptorRef` | `neon-helpers.h` |
| common: `stl-helpers*` | `StlHelpers` | iterator traits |
| common: `yaml-serialization*`, `sensor.*` | `Yaml` | text of YAML, `yaml-file-serialization.h` (files) |
| common: `undistort-helpers.h` | `Undistort` | – |
| common: `covariance-helpers.*` | `GeometricVision` | – |
| common: `numdiff-jacobian-tester.h`, `opencv-predicates.h` | `NumDiff`, `ImageEqual` | printed values |
| common: `crtp-clone.h`, `macros.h`, `memory.h`, `meta.h`, `types.h`, `eigen-hash.h`, `entrypoint.h`, `pose-types.h`, `predicates.h` | – | declarations without behaviour of their own |
| cameras: projections, distortions | `Camera`, `Distortion` | `Camera3DLidar` vectorised calls |
| cameras: `camera.cc`, `camera.h`, `camera-factory.cc`, random points | `Camera`, `CameraMask`, `Yaml` | printing |
| cameras: `ncamera.*`, `random-camera-generator.cc` | `NCamera`, `TestRig`, `Yaml` | random intrinsics |
| frames | `VisualFrame`, `FeatureTrack` | printing, random frames |
| pipeline | `NPipeline`, `VisualPipeline`, `Undistort` | BRISK/FREAK themselves |
| matcher | `GyroMatcher`, `TrackManager` | – |
| tracker | `GyroTracker`, `TrackManager` | optical flow itself; the checks of `GyroTracker::track` on its frames (feature-tracker-gyro.cc:80-109) except those for track ids in C151 and C155; the type of extracted descriptors |
| geometric vision | `GeometricVision` | opengv |
| triangulation | `Triangulation` | benchmark |
| calibration | `Calibration`, `Target` | drawing; AprilTag detection |
| detector: KAZE | `Kaze` | parallel threads, timing, drawing of keypoints; the filters of OpenCV are modelled from their documentation |
| detector: LSD | `Lsd` | blurring and resizing of the image, the pixels of a line |
| visualization: `basic-visualization.cc` | `Visualization` | the pixels of a shape |
