{"id": "C01", "title": "Ordered tasks of one group never overlap", "statement": "Two tasks enqueued with enqueueOrdered under the same exclusivity group id are never executing at the same time, whatever the number of worker threads.", "quantifier": "all numbers of workers, all interleavings of worker, client, stop and destructor steps, all sequences of enqueue calls and group ids", "why_tests_cant": "the bad overlap needs one particular interleaving out of unboundedly many; a test run samples a few schedules", "anchors": ["aslam_cv_common/src/thread-pool.cc: ThreadPool::run, ~ThreadPool, waitForEmptyQueue", "aslam_cv_common/include/aslam/common/thread-pool.h: ThreadPool::enqueue, enqueueOrdered, stop"]}
{"id": "C02", "title": "Ordered tasks of one group start in submission order", "statement": "Tasks enqueued with the same exclusivity group id begin (and, since they never overlap, finish) in exactly the order in which they were enqueued.", "quantifier": "all numbers of workers, all interleavings, all task histories", "why_tests_cant": "the scan that skips blocked tasks could reorder a group only under specific mixes of groups and schedules", "anchors": ["aslam_cv_common/src/thread-pool.cc: ThreadPool::run, ~ThreadPool, waitForEmptyQueue", "aslam_cv_common/include/aslam/common/thread-pool.h: ThreadPool::enqueue, enqueueOrdered, stop"]}
{"id": "C03", "title": "No task is lost or run twice by the pool", "statement": "At every moment each task accepted by enqueue/enqueueOrdered is in exactly one of the states waiting, executing, finished; in particular it is executed at most once and the pool's non-exclusive counter and active-thread counter equal the real numbers.", "quantifier": "all reachable states of the pool under all interleavings", "why_tests_cant": "exactly-once execution is a statement about every schedule, not the sampled ones", "anchors": ["aslam_cv_common/src/thread-pool.cc: ThreadPool::run, ~ThreadPool, waitForEmptyQueue", "aslam_cv_common/include/aslam/common/thread-pool.h: ThreadPool::enqueue, enqueueOrdered, stop"]}
{"id": "C04", "title": "A runnable task is never stranded", "statement": "If a task that may run (non-exclusive, or the first waiting task of an idle group) is queued and the pool has at least one worker, then some worker is not asleep or has a wake-up pending for it: the pool cannot reach a state in which work is runnable but every worker sleeps forever (no lost wake-up), although workers and waitForEmptyQueue callers share one condition variable and enqueue only notifies one waiter.", "quantifier": "all reachable states, all choices of which waiter a notify_one wakes, spurious wake-ups included", "why_tests_cant": "lost wake-ups depend on which thread the OS chooses to wake; tests cannot enumerate this", "anchors": ["aslam_cv_common/src/thread-pool.cc: ThreadPool::run, ~ThreadPool, waitForEmptyQueue", "aslam_cv_common/include/aslam/common/thread-pool.h: ThreadPool::enqueue, enqueueOrdered, stop"]}
{"id": "C05", "title": "Shutdown drains the pool", "statement": "When the destructor's joins have returned, every task that was ever accepted has been executed; tasks submitted concurrently with stop() are either executed or rejected, and waitForEmptyQueue always returns eventually once no more tasks are submitted.", "quantifier": "all interleavings of stop, enqueue, waitForEmptyQueue and worker steps", "why_tests_cant": "the race window between the unlocked stop_ test and the push is a few instructions wide", "anchors": ["aslam_cv_common/src/thread-pool.cc: ThreadPool::run, ~ThreadPool, waitForEmptyQueue", "aslam_cv_common/include/aslam/common/thread-pool.h: ThreadPool::enqueue, enqueueOrdered, stop"]}
{"id": "C06", "title": "waitForEmptyQueue returns only when the pool is idle", "statement": "Whenever waitForEmptyQueue returns, at the instant it returns no task is waiting and no task is executing.", "quantifier": "all reachable states and schedules", "why_tests_cant": "a premature return needs a specific order of worker wake-ups", "anchors": ["aslam_cv_common/src/thread-pool.cc: ThreadPool::run, ~ThreadPool, waitForEmptyQueue", "aslam_cv_common/include/aslam/common/thread-pool.h: ThreadPool::enqueue, enqueueOrdered, stop"]}
{"id": "C07", "title": "Reader/writer exclusion", "statement": "Under ReaderWriterMutex and ReaderFirstReaderWriterMutex, whenever a thread holds the write lock no other thread holds a read or write lock.", "quantifier": "any number of threads, any interleaving of acquire/release/upgrade calls that respects the usage protocol (release only what you hold)", "why_tests_cant": "exclusion is a property of every schedule", "anchors": ["aslam_cv_common/src/reader-writer-lock.cc", "aslam_cv_common/include/aslam/common/reader-writer-lock.h: ReaderWriterMutex", "aslam_cv_common/src/reader-first-reader-writer-lock.cc", "aslam_cv_common/include/aslam/common/reader-first-reader-writer-lock.h"]}
{"id": "C08", "title": "Upgrade is atomic with respect to writers", "statement": "A read lock upgraded with upgradeToWriteLock() = true becomes a write lock with no other writer holding the lock in between; at most one upgrade is pending at any time; a refused upgrade (false) has released the caller's read lock.", "quantifier": "any number of threads, all interleavings", "why_tests_cant": "the window between giving up the read lock and gaining the write lock is schedule dependent", "anchors": ["aslam_cv_common/src/reader-writer-lock.cc", "aslam_cv_common/include/aslam/common/reader-writer-lock.h: ReaderWriterMutex", "aslam_cv_common/src/reader-first-reader-writer-lock.cc", "aslam_cv_common/include/aslam/common/reader-first-reader-writer-lock.h"]}
{"id": "C09", "title": "The locks make progress", "statement": "In no reachable state are all threads that are inside acquire/upgrade asleep with nobody holding the lock and no wake-up pending: every blocked thread's condition is re-checked after every release that could satisfy it.", "quantifier": "any number of threads, all interleavings, arbitrary choice of the woken waiter", "why_tests_cant": "missing notifications only show in rare schedules", "anchors": ["aslam_cv_common/src/reader-writer-lock.cc", "aslam_cv_common/include/aslam/common/reader-writer-lock.h: ReaderWriterMutex", "aslam_cv_common/src/reader-first-reader-writer-lock.cc", "aslam_cv_common/include/aslam/common/reader-first-reader-writer-lock.h"]}
{"id": "C10", "title": "isInUse reports exactly whether the lock is in use", "statement": "isInUse() returns true iff some thread holds or is waiting for the lock, for the writer-preferring mutex as well as for the reader-first variant.", "quantifier": "all reachable lock states", "why_tests_cant": "needs a probe at the exact moment where only waiting threads exist", "anchors": ["aslam_cv_common/src/reader-writer-lock.cc", "aslam_cv_common/include/aslam/common/reader-writer-lock.h: ReaderWriterMutex", "aslam_cv_common/src/reader-first-reader-writer-lock.cc", "aslam_cv_common/include/aslam/common/reader-first-reader-writer-lock.h"]}
{"id": "C11", "title": "Matrix channels survive serialisation", "statement": "For every Eigen matrix channel value, deserialising the buffer or the string produced by serialising it yields the same dimensions and the same entries, and buffer and string forms carry the same bytes.", "quantifier": "all matrices of all sizes and element values (byte patterns) whose dimensions fit the header", "why_tests_cant": "round-trip over unbounded sizes and contents", "anchors": ["aslam_cv_common/include/aslam/common/channel-serialization.h", "aslam_cv_common/src/channel-serialization.cc"]}
{"id": "C12", "title": "A matrix buffer is accepted only if it is complete", "statement": "Deserialising a matrix (single, vector of matrices, or cv::Mat) from an arbitrary byte buffer either reports failure or reads only bytes inside the buffer and consumes a well-formed encoding of exactly the claimed size; it never reads or writes out of bounds.", "quantifier": "all byte buffers of all lengths", "why_tests_cant": "malformed inputs are unbounded; a fuzz test samples them and cannot see silent over-reads", "anchors": ["aslam_cv_common/include/aslam/common/channel-serialization.h", "aslam_cv_common/src/channel-serialization.cc"]}
{"id": "C13", "title": "Vector-of-matrix channels survive serialisation", "statement": "For every list of matrices, deserialising the serialised buffer or string yields the same list.", "quantifier": "all lists of matrices, all lengths", "why_tests_cant": "unbounded nesting and sizes", "anchors": ["aslam_cv_common/include/aslam/common/channel-serialization.h", "aslam_cv_common/src/channel-serialization.cc"]}
{"id": "C14", "title": "Scalar channels survive serialisation", "statement": "For every value of a scalar channel (int64, uint64, size_t, bool, double), deserialising its serialised form yields the value again, through the binary buffer form and through the decimal string form.", "quantifier": "all values of the scalar types", "why_tests_cant": "2^64 values; boundary values above 2^63 are exactly the ones hand-written tests leave out", "anchors": ["aslam_cv_common/include/aslam/common/channel-serialization.h", "aslam_cv_common/src/channel-serialization.cc"]}
{"id": "C15", "title": "A channel group is a typed map", "statement": "Adding, looking up, testing and removing channels behaves like a finite map from names to typed values: a channel holds what was last stored in it, operations on one name never affect another, adding an existing or accessing/removing a missing channel (or one of another type) aborts, and cloning a group yields an equal group whose later changes do not affect the original.", "quantifier": "all sequences of operations on channel groups, all names and values", "why_tests_cant": "the map law is about every history", "anchors": ["aslam_cv_common/include/aslam/common/channel.h", "aslam_cv_common/src/channel.cc: isChannelGroupEqual, cloneChannelGroup, mergeChannelGroups", "aslam_cv_common/include/aslam/common/channel-declaration.h"]}
{"id": "C16", "title": "Occupancy grid bookkeeping", "statement": "After any sequence of operations every stored point lies in the cell that contains its coordinates, getAllPointsInGrid returns each stored point exactly once and getNumPoints equals the number of stored points; coordinates inside the input range always map to an existing cell and coordinates outside are rejected.", "quantifier": "all grid sizes, all operation sequences, all (exact) coordinates", "why_tests_cant": "invariants over unbounded operation sequences and cell boundaries", "anchors": ["aslam_cv_common/include/aslam/common/occupancy-grid.h", "aslam_cv_common/include/aslam/common/occupancy-grid-inl.h"]}
{"id": "C17", "title": "Bounded cells keep the strongest points", "statement": "With addPointOrReplaceWeakestIfCellFull every cell holds at most the requested number of points and, for points added one after the other, holds the heaviest ones that were offered to that cell.", "quantifier": "all sequences of offered points and weights", "why_tests_cant": "the top-k claim is about every insertion order", "anchors": ["aslam_cv_common/include/aslam/common/occupancy-grid.h", "aslam_cv_common/include/aslam/common/occupancy-grid-inl.h"]}
{"id": "C18", "title": "Minimum distance insertion", "statement": "If points are only added with addPointOrReplaceWeakestNearestPoints and a fixed minimum distance, any two points stored in the grid are at least that distance apart after every insertion, and a rejected point had a stored neighbour closer than that distance with at least its weight.", "quantifier": "all grids, all sequences of insertions, all coordinates and weights", "why_tests_cant": "pairs across cell borders in every history", "anchors": ["aslam_cv_common/include/aslam/common/occupancy-grid.h", "aslam_cv_common/include/aslam/common/occupancy-grid-inl.h"]}
{"id": "C19", "title": "Thinning reaches the requested size", "statement": "removePointsFromFullestCellsUntilSize(n) leaves at most n points, removes points only from the currently fullest cell, and terminates without aborting for every grid and every n.", "quantifier": "all grid contents and all target sizes", "why_tests_cant": "the failing inputs are grids with more non-empty cells than requested points", "anchors": ["aslam_cv_common/include/aslam/common/occupancy-grid.h", "aslam_cv_common/include/aslam/common/occupancy-grid-inl.h"]}
{"id": "C20", "title": "Thinning an overfull cell keeps the strongest points", "statement": "removeWeightedPointsFromOverfullCell(s) leaves exactly min(n, k) points in every cell and no removed point is heavier than a kept one.", "quantifier": "all cells, weights and limits", "why_tests_cant": "all permutations and ties of weights", "anchors": ["aslam_cv_common/include/aslam/common/occupancy-grid.h", "aslam_cv_common/include/aslam/common/occupancy-grid-inl.h"]}
{"id": "C21", "title": "Erasing indices removes exactly those elements", "statement": "eraseIndicesFromVector / eraseIndicesFromContainer remove exactly the elements at the given positions, keep the order of the rest, and do so for any order of the index list; inputs on which this is impossible (out-of-range or repeated positions) are rejected instead of corrupting memory.", "quantifier": "all vectors and all index lists", "why_tests_cant": "unbounded lists; repeated indices are memory errors that a passing run may hide", "anchors": ["aslam_cv_common/include/aslam/common/stl-helpers.h", "aslam_cv_common/include/aslam/common/stl-helpers-inl.h"]}
{"id": "C22", "title": "Selection helpers", "statement": "keepOnlyNSortedElements keeps the n greatest elements in sorted order; median returns the middle order statistic (mean of the middle two for even length); drawNRandomElements returns elements of the input at pairwise different positions.", "quantifier": "all inputs, sizes and random choices", "why_tests_cant": "all permutations and sizes; randomised outcomes", "anchors": ["aslam_cv_common/include/aslam/common/stl-helpers.h", "aslam_cv_common/include/aslam/common/stl-helpers-inl.h"]}
{"id": "C23", "title": "Ids survive their hexadecimal form", "statement": "For every id, fromHexString(hexString(id)) succeeds and yields the id, and hexString yields 32 lower-case hexadecimal characters.", "quantifier": "all 2^128 ids", "why_tests_cant": "2^128 inputs", "anchors": ["aslam_cv_common/include/aslam/common/hash-id.h: HashId", "aslam_cv_common/src/hash-id.cc", "aslam_cv_common/include/aslam/common/unique-id.h", "aslam_cv_common/src/internal/unique-id.cc"]}
{"id": "C24", "title": "Only hexadecimal strings are accepted as ids", "statement": "fromHexString returns true exactly for strings of 32 hexadecimal digits, and otherwise returns false and leaves the id unchanged.", "quantifier": "all strings", "why_tests_cant": "unbounded inputs; strtoul's leniency (signs, blanks, 0x) is the untested part", "anchors": ["aslam_cv_common/include/aslam/common/hash-id.h: HashId", "aslam_cv_common/src/hash-id.cc", "aslam_cv_common/include/aslam/common/unique-id.h", "aslam_cv_common/src/internal/unique-id.cc"]}
{"id": "C25", "title": "Id order, equality and hashing are consistent", "statement": "operator< is a strict total order consistent with operator==, isValid is false only for the all-zero id, and equal ids have equal hashes.", "quantifier": "all pairs and triples of ids", "why_tests_cant": "2^384 triples", "anchors": ["aslam_cv_common/include/aslam/common/hash-id.h: HashId", "aslam_cv_common/src/hash-id.cc", "aslam_cv_common/include/aslam/common/unique-id.h", "aslam_cv_common/src/internal/unique-id.cc"]}
{"id": "C26", "title": "Generated ids are distinct and valid", "statement": "Ids generated in one process by the random generator are pairwise different, and generateIdFromInt maps different integers to different valid ids.", "quantifier": "all numbers of generated ids and all integers", "why_tests_cant": "pairwise distinctness over unbounded sequences", "anchors": ["aslam_cv_common/include/aslam/common/hash-id.h: HashId", "aslam_cv_common/src/hash-id.cc", "aslam_cv_common/include/aslam/common/unique-id.h", "aslam_cv_common/src/internal/unique-id.cc"]}
{"id": "C27", "title": "Time conversions", "statement": "Unit conversions between seconds, milliseconds, microseconds and nanoseconds invert each other on whole units, and the printed form of a timestamp determines the timestamp (seconds and nine digits of nanoseconds) for every timestamp.", "quantifier": "all 64 bit timestamps", "why_tests_cant": "the failing region (negative values, fewer than ten digits) is easily left out of tests", "anchors": ["aslam_cv_common/include/aslam/common/time.h"]}
{"id": "C28", "title": "Images are grouped by timestamp within the tolerance", "statement": "Every image processed by the n-camera pipeline is put into an existing n-frame iff there is one whose timestamp is within the tolerance (the nearest one) and otherwise starts a new n-frame at its own timestamp; every frame of an n-frame is within the tolerance of the n-frame's timestamp; the pipeline's internal consistency checks on this never fire for distinct cameras and timestamps.", "quantifier": "all arrival orders, timestamps, numbers of cameras and tolerances", "why_tests_cant": "all interleavings of arrival times", "anchors": ["aslam_cv_pipeline/src/visual-npipeline.cc", "aslam_cv_pipeline/include/aslam/pipeline/visual-npipeline.h"]}
{"id": "C29", "title": "Only complete n-frames are delivered, in chronological order, at most once", "statement": "getNext/getLatestAndClear deliver only n-frames in which every camera's frame is set; getNext delivers in increasing timestamp order among the currently completed; no n-frame is delivered twice; getLatestAndClear returns the newest completed one and discards exactly the older ones.", "quantifier": "all histories of image arrivals and get calls", "why_tests_cant": "histories are unbounded and concurrent", "anchors": ["aslam_cv_pipeline/src/visual-npipeline.cc", "aslam_cv_pipeline/include/aslam/pipeline/visual-npipeline.h"]}
{"id": "C30", "title": "The pipeline's drop policy never discards complete n-frames", "statement": "When camera frames go missing, the frame-drop clean-up discards only incomplete n-frames; every n-frame for which all cameras delivered an image becomes available to the caller.", "quantifier": "all patterns of missing camera images", "why_tests_cant": "needs specific loss patterns over several n-frames", "anchors": ["aslam_cv_pipeline/src/visual-npipeline.cc", "aslam_cv_pipeline/include/aslam/pipeline/visual-npipeline.h"]}
{"id": "C31", "title": "Shutdown wakes every blocked caller", "statement": "After shutdown() has returned, every call blocked in getNextBlocking, getLatestAndClearBlocking or processImageBlockingIfFull returns.", "quantifier": "all interleavings of shutdown with the blocking calls", "why_tests_cant": "the losing interleaving is a few instructions wide", "anchors": ["aslam_cv_pipeline/src/visual-npipeline.cc", "aslam_cv_pipeline/include/aslam/pipeline/visual-npipeline.h"]}
{"id": "C32", "title": "Discarding untracked keypoints keeps the channels aligned", "statement": "discardUntrackedObservations removes exactly the keypoints with a negative track id from every per-keypoint channel the frame has, so that afterwards entry i of every channel still describes the same keypoint as entry i of every other channel.", "quantifier": "all frames: every set of present channels and every track id vector", "why_tests_cant": "2^channels combinations and unbounded sizes", "anchors": ["aslam_cv_frames/src/visual-frame.cc", "aslam_cv_frames/include/aslam/frames/visual-frame.h", "aslam_cv_frames/include/aslam/frames/visual-frame-inl.h"]}
{"id": "C33", "title": "Descriptor blocks partition the keypoint indices", "statement": "For a frame with several descriptor blocks every keypoint index below the total belongs to exactly one block, block start offsets and sizes tile the index range in order, extending a frame appends a block at the end with the new keypoints, and an index beyond the total aborts.", "quantifier": "all numbers and sizes of blocks, all indices", "why_tests_cant": "unbounded block lists", "anchors": ["aslam_cv_frames/src/visual-frame.cc", "aslam_cv_frames/include/aslam/frames/visual-frame.h", "aslam_cv_frames/include/aslam/frames/visual-frame-inl.h"]}
{"id": "C34", "title": "Extending a frame keeps per-keypoint channels aligned", "statement": "extendKeypointMeasurements and the other extend… calls append the new values after the existing ones and pad missing earlier entries with the default, so entry i of each extended channel stays the value of keypoint i.", "quantifier": "all histories of extend calls", "why_tests_cant": "all histories", "anchors": ["aslam_cv_frames/src/visual-frame.cc", "aslam_cv_frames/include/aslam/frames/visual-frame.h", "aslam_cv_frames/include/aslam/frames/visual-frame-inl.h"]}
{"id": "C35", "title": "Copies of frames are independent and equal", "statement": "Copying a VisualFrame or VisualNFrame yields an object that compares equal and whose later modification does not change the original.", "quantifier": "all frames and all later modifications", "why_tests_cant": "aliasing is only visible under specific later writes", "anchors": ["aslam_cv_frames/src/visual-frame.cc", "aslam_cv_frames/include/aslam/frames/visual-frame.h", "aslam_cv_frames/include/aslam/frames/visual-frame-inl.h", "aslam_cv_frames/src/visual-nframe.cc"]}
{"id": "C36", "title": "N-frame timestamps bound the frames", "statement": "getMinTimestampNanoseconds and getMaxTimestampNanoseconds return the minimum/maximum over the frames that are set; with no frame set they abort.", "quantifier": "all n-frames, all subsets of set frames", "why_tests_cant": "all subsets and values", "anchors": ["aslam_cv_frames/src/visual-nframe.cc: getMinTimestampNanoseconds, getMaxTimestampNanoseconds"]}
{"id": "C37", "title": "Matched keypoints share a track id", "statement": "After SimpleTrackManager::applyMatchesToFrames succeeds, the two keypoints of every match have the same non-negative track id, keypoints without a match keep their id, and ids that were already assigned never change.", "quantifier": "all match lists, all track id vectors", "why_tests_cant": "all lists", "anchors": ["aslam_cv_tracker/src/track-manager.cc", "aslam_cv_tracker/include/aslam/tracker/track-manager.h"]}
{"id": "C38", "title": "Track ids are unique within a frame and never reused", "statement": "Starting from frames without track ids, over any sequence of applyMatchesToFrames calls, different keypoints of one frame never carry the same track id, and a newly assigned id was never assigned before.", "quantifier": "all histories of frames and matches", "why_tests_cant": "uniqueness over unbounded histories and the integer range", "anchors": ["aslam_cv_tracker/src/track-manager.cc", "aslam_cv_tracker/include/aslam/tracker/track-manager.h"]}
{"id": "C39", "title": "The gyro matcher returns a one-to-one matching", "statement": "In the match list returned by GyroTwoFrameMatcher::match every keypoint of either frame occurs at most once, all indices are valid, every match satisfies the score threshold and lies in the search window, and the internal CHECKs never fire.", "quantifier": "all keypoint sets, descriptors (as score functions) and predictions", "why_tests_cant": "all configurations of competing candidates", "anchors": ["aslam_cv_matcher/src/gyro-two-frame-matcher.cc", "aslam_cv_matcher/include/aslam/matcher/gyro-two-frame-matcher.h"]}
{"id": "C40", "title": "The matcher's row search finds every keypoint in the window", "statement": "The row look-up used by the matcher visits exactly the keypoints whose row is inside the search window clipped to the image.", "quantifier": "all images, keypoint sets and windows", "why_tests_cant": "boundary rows", "anchors": ["aslam_cv_matcher/src/gyro-two-frame-matcher.cc", "aslam_cv_matcher/include/aslam/matcher/gyro-two-frame-matcher.h"]}
{"id": "C41", "title": "The ratio test does not depend on the order of keypoints", "statement": "Whether the best candidate passes the matcher's ratio test depends only on the best and the second best descriptor distances among the candidates, not on the order in which keypoints are visited.", "quantifier": "all candidate lists and permutations", "why_tests_cant": "all permutations", "anchors": ["aslam_cv_matcher/src/gyro-two-frame-matcher.cc", "aslam_cv_matcher/include/aslam/matcher/gyro-two-frame-matcher.h"]}
{"id": "C42", "title": "Optical-flow candidates complement the matches", "statement": "The gyro tracker's Lucas-Kanade candidates are distinct unmatched keypoints of frame k, their number never exceeds the configured fraction, longer tracks are preferred; the combined match list given to the track manager is one-to-one so its exclusiveness checks never abort.", "quantifier": "all match lists, statuses and track lengths", "why_tests_cant": "composition of several stages over unbounded inputs", "anchors": ["aslam_cv_tracker/src/feature-tracker-gyro.cc", "aslam_cv_tracker/include/aslam/tracker/feature-tracker-gyro.h"]}
{"id": "C43", "title": "Accumulator window statistics", "statement": "After any sequence of Add calls, the accumulator's total, sum, mean, min and max are those of all samples and the rolling mean and the lazy variance are those of the last W samples (all samples while fewer than W were added).", "quantifier": "all sample sequences, all window sizes", "why_tests_cant": "ring-buffer wrap-around for all lengths", "anchors": ["aslam_cv_common/include/aslam/common/statistics/accumulator.h: Accumulator"]}
{"id": "C44", "title": "Statistics are attributed to the right name", "statement": "Samples added under one tag or handle are reported for exactly that tag: handles of different tags never alias, a handle keeps denoting its tag, and adding samples to one tag never changes the figures of another.", "quantifier": "all sequences of tag lookups, samples and resets", "why_tests_cant": "non-interference over histories", "anchors": ["aslam_cv_common/src/statistics.cc", "aslam_cv_common/include/aslam/common/statistics/statistics.h"]}
{"id": "C45", "title": "Every timer interval is recorded once", "statement": "Each Start…Stop pair adds exactly one sample with the elapsed time to the timer's tag; stopping a stopped timer and discarding add none; destroying a running timer records it.", "quantifier": "all sequences of timer operations", "why_tests_cant": "all sequences", "anchors": ["aslam_cv_common/src/timer.cc", "aslam_cv_common/include/aslam/common/timer.h"]}
{"id": "C46", "title": "Hamming distance counts differing bits", "statement": "The Hamming functor returns the number of differing bits of two descriptors for every descriptor length.", "quantifier": "all pairs of descriptors of all lengths", "why_tests_cant": "lane overflow only shows for long descriptors with many differing bits", "anchors": ["aslam_cv_common/include/aslam/common/hamming.h: Hamming::operator()", "aslam_cv_common/include/aslam/common/hamming-inl.h: SSSE3PopcntofXORed, NEONPopcntofXORed"]}
{"id": "C47", "title": "Descriptor bit operations", "statement": "Setting, clearing and flipping a descriptor bit changes that bit only; the number of differing bits reported between a descriptor and its copy with n random bits flipped is n; the binary mean descriptor has a bit set iff it is set in a strict majority of the inputs and thereby minimises the summed Hamming distance.", "quantifier": "all descriptors, indices, flip choices and input sets", "why_tests_cant": "2^bits inputs", "anchors": ["aslam_cv_common/include/aslam/common/descriptor-utils.h", "aslam_cv_common/include/aslam/common/feature-descriptor-ref.h"]}
{"id": "C48", "title": "Camera ids and indices of a rig agree", "statement": "For every camera rig, at any time, getCameraIndex(getCameraId(i)) = i for every camera i and getCameraIndex/hasCameraWithId report 'absent' exactly for ids no camera of the rig has - after construction, setCamera, cloning with new ids and cloning without distortion.", "quantifier": "all rigs and all operation histories", "why_tests_cant": "all histories", "anchors": ["aslam_cv_cameras/src/ncamera.cc", "aslam_cv_cameras/include/aslam/cameras/ncamera.h"]}
{"id": "C49", "title": "Pinhole projection and back-projection are inverse", "statement": "For the pinhole camera with an invertible distortion model: projecting any positive multiple of the back-projected ray of a keypoint returns the keypoint, back-projecting the projection of a point in front of the camera returns the ray through the point; the returned status is 'visible' iff the depth exceeds the minimum and the keypoint is inside the image box.", "quantifier": "all intrinsics with positive focal lengths, all keypoints and points (exact real arithmetic)", "why_tests_cant": "continuum of inputs", "anchors": ["aslam_cv_cameras/src/camera-pinhole.cc", "aslam_cv_cameras/include/aslam/cameras/camera-pinhole-inl.h", "aslam_cv_cameras/src/camera.cc"]}
{"id": "C50", "title": "Pinhole Jacobians are the derivatives", "statement": "The 2x3 point Jacobian and the 2x4 intrinsics Jacobian returned by the pinhole projection are the derivatives of the returned keypoint.", "quantifier": "all points with nonzero depth and all intrinsics (exact real arithmetic)", "why_tests_cant": "numeric differentiation only samples", "anchors": ["aslam_cv_cameras/src/camera-pinhole.cc", "aslam_cv_cameras/include/aslam/cameras/camera-pinhole-inl.h", "aslam_cv_cameras/src/camera.cc"]}
{"id": "C51", "title": "Homogeneous projection", "statement": "project4 of a homogeneous point gives the projection of the point it represents, does not depend on the (non-zero) scale of the homogeneous coordinates, and its Jacobian is the derivative of the keypoint.", "quantifier": "all homogeneous points", "why_tests_cant": "sign cases (negative last coordinate) are rarely tested", "anchors": ["aslam_cv_cameras/src/camera.cc: project4, backProject4"]}
{"id": "C52", "title": "Unified projection and back-projection are inverse", "statement": "For the unified projection model: projecting the back-projected ray of every keypoint that back-projection reports as valid returns the keypoint.", "quantifier": "all xi >= 0, focal lengths > 0 and keypoints (exact real arithmetic)", "why_tests_cant": "continuum", "anchors": ["aslam_cv_cameras/src/camera-unified-projection.cc"]}
{"id": "C53", "title": "Distortion Jacobians are the derivatives", "statement": "The point Jacobian and the parameter Jacobian returned by the radial-tangential, fisheye and equidistant distortion models are the derivatives of the distorted point at every input point.", "quantifier": "all points and coefficients (exact real arithmetic)", "why_tests_cant": "special-case branches near the image centre are rarely sampled", "anchors": ["aslam_cv_cameras/src/distortion-radtan.cc", "aslam_cv_cameras/src/distortion-fisheye.cc", "aslam_cv_cameras/src/distortion-equidistant.cc"]}
{"id": "C54", "title": "Fisheye undistortion inverts distortion", "statement": "undistort(distort(p)) = p for the fisheye model for every valid coefficient and every point.", "quantifier": "all points, all valid coefficients (exact real arithmetic)", "why_tests_cant": "continuum; the small-radius branch", "anchors": ["aslam_cv_cameras/src/distortion-fisheye.cc"]}
{"id": "C55", "title": "Triangulation recovers the point from perfect measurements", "statement": "If all viewing rays pass through one point and the result is reported successful, the returned point is that point; the problem is reported unobservable exactly when the rays are all parallel.", "quantifier": "all numbers of views and all exact ray configurations", "why_tests_cant": "continuum of configurations and view counts", "anchors": ["aslam_cv_triangulation/src/triangulation.cc"]}
{"id": "C56", "title": "Triangulating a feature track uses every observation with its own pose", "statement": "triangulateFeatureTrack and fastTriangulateFeatureTrack hand the solver one bearing vector and one camera position per observation, each computed from that observation's own pose.", "quantifier": "all tracks", "why_tests_cant": "results look plausible with wrong data", "anchors": ["aslam_cv_triangulation/src/triangulation.cc"]}
{"id": "C57", "title": "AprilGrid corner indexing", "statement": "The detector's mapping from (tag id, corner) to target point index is a bijection onto the target's point indices, and the target point with that index is the physical position of that corner of that tag; converting between point index and grid coordinates is a bijection.", "quantifier": "all grid sizes, tags and corners", "why_tests_cant": "all grid shapes", "anchors": ["aslam_cv_calibration/src/target-aprilgrid.cc", "aslam_cv_calibration/src/target-base.cc"]}
{"id": "C58", "title": "Target observations find every observed corner", "statement": "getObservedCornerById(id) returns true and the observed position iff the corner was observed, for every corner id of the target; observedCornerId agrees with it.", "quantifier": "all targets and observed subsets", "why_tests_cant": "partial observations with large ids", "anchors": ["aslam_cv_calibration/include/aslam/calibration/target-observation.h"]}
{"id": "C59", "title": "Circle helpers", "statement": "intersectCircles returns only points lying on both circles (and returns one or two points whenever the circles meet and are not concentric); fitCircle returns the exact centre and radius when all points lie on a circle.", "quantifier": "all circles and point sets (exact real arithmetic)", "why_tests_cant": "continuum", "anchors": ["aslam_cv_calibration/include/aslam/calibration/helpers.h"]}
{"id": "C60", "title": "Outlier rejection partitions the matches", "statement": "rejectOutlierFeatureMatchesTranslationRotationSAC splits the match list into inliers and outliers: each match goes to exactly one list, order is preserved, and on failure all matches are outliers.", "quantifier": "all match lists and RANSAC outcomes", "why_tests_cant": "all outcomes", "anchors": ["aslam_cv_geometric_vision/src/match-outlier-rejection-twopt.cc"]}
{"id": "C61", "title": "Lock preference is as named", "statement": "In ReaderWriterMutex, while a thread is waiting in acquireWriteLock, or in upgradeToWriteLock for other readers to leave, no further thread is granted the read lock; in ReaderFirstReaderWriterMutex a thread calling acquireReadLock is granted the lock at once unless a writer holds it, even if writers are waiting.", "quantifier": "any number of threads, all reachable states and steps", "why_tests_cant": "preference is a statement about every interleaving in which a writer waits, including re-checks after wake-ups", "anchors": ["aslam_cv_common/src/reader-writer-lock.cc", "aslam_cv_common/src/reader-first-reader-writer-lock.cc"]}
{"id": "C62", "title": "Clearing the keypoint channels leaves no keypoints", "statement": "After clearKeypointChannels a frame has no keypoint measurements, no descriptors and no per-keypoint data in any channel, and can be filled again consistently.", "quantifier": "all frames", "why_tests_cant": "all combinations of channels and descriptor blocks", "anchors": ["aslam_cv_frames/src/visual-frame.cc: clearKeypointChannels, setDescriptors"]}
{"id": "C63", "title": "Frames of an n-frame and the cameras of its rig", "statement": "At any time an n-frame with a camera rig has exactly one place per camera, and each frame that is set has the camera of its place; setNCameras and setFrame refuse whatever would break this. areAllFramesSet, hasRawImagesInAllFrames and releaseRawImagesOfAllFrames answer for, or act on, exactly the frames of the n-frame.", "quantifier": "all sequences of calls on any number of frames and n-frames", "why_tests_cant": "sharing of frames between n-frames and all orders of calls", "anchors": ["aslam_cv_frames/src/visual-nframe.cc:68-83,132-160,237-252"]}
{"id": "C64", "title": "Spread statistics of descriptors", "statement": "getIndexOfDescriptorClosestToMedian returns the index of a descriptor whose summed Hamming distance to the others is minimal; descriptorMeanAbsoluteDeviation is the least average distance that any descriptor has to the given ones; floatDescriptorMean is the fraction of descriptors in which each bit is set, and the squared descriptorMeanStandardDeviation is the sum of p(1-p) over the bits.", "quantifier": "all non-empty sets of descriptors of equal length", "why_tests_cant": "minimality is a statement about all descriptors, not about those of a test", "anchors": ["aslam_cv_common/include/aslam/common/descriptor-utils.h"]}
{"id": "C65", "title": "Ownership of descriptor memory", "statement": "However descriptor references are created, copied, assigned, allocated, released and destroyed, no memory is freed twice, no freed or foreign memory is freed or used, and when all references are gone nothing is leaked; copying or assigning from or to a reference that owns its memory copies the contents into memory of its own, so that later writes through one are not seen through the other.", "quantifier": "all sequences of operations on any number of references", "why_tests_cant": "memory errors depend on the whole history of ownership; leaks and aliasing do not show in results", "anchors": ["aslam_cv_common/include/aslam/common/feature-descriptor-ref.h", "aslam_cv_common/include/aslam/common/feature-descriptor-ref-inl.h"]}
{"id": "C66", "title": "Iterative undistortion is a Newton iteration", "statement": "undistort of the radial-tangential and equidistant models returns a point reached by Newton steps, each solving the linearised distortion equation exactly, and stops after at most 30 steps or one step after an iterate distorts to within the tolerance of the input; a point that already distorts to the input is returned unchanged (so zero coefficients and the image centre are exact).", "quantifier": "all points, coefficients and tolerances (exact real arithmetic)", "why_tests_cant": "continuum of points and coefficients; the loop state is not observable", "anchors": ["aslam_cv_cameras/src/distortion-radtan.cc: undistortUsingExternalCoefficients", "aslam_cv_cameras/src/distortion-equidistant.cc: undistortUsingExternalCoefficients"]}
{"id": "C67", "title": "Unified projection: Jacobians and status", "statement": "For the unified projection camera the Jacobians of the keypoint with respect to the point, the intrinsics and the distortion coefficients returned with a valid projection are its derivatives; the status is \"visible\" exactly if the point is in the field of view of the model, farther than the minimum depth and the keypoint is in the image; positive multiples of a point give the same keypoint.", "quantifier": "all points in the field of view, all intrinsics and coefficients (exact real arithmetic)", "why_tests_cant": "numeric differentiation only samples", "anchors": ["aslam_cv_cameras/src/camera-unified-projection.cc"]}
{"id": "C68", "title": "Visibility, masks and vectorised projection", "statement": "isKeypointVisibleWithMargin(k, m) holds exactly if every point within m of k in both coordinates is visible; a keypoint is unmasked exactly if it is in the image and the mask, if any, is not zero at the pixel containing it, and the mask is never read outside its bounds; the vectorised projections give column by column what the others give; isProjectable says whether project3 succeeds, not whether the keypoint is visible (as documented).", "quantifier": "all keypoints, margins, masks, image sizes", "why_tests_cant": "boundaries: half-open intervals, negative coordinates, rounding of coordinates", "anchors": ["aslam_cv_cameras/include/aslam/cameras/camera-inl.h", "aslam_cv_cameras/include/aslam/cameras/camera.h: isMasked", "aslam_cv_cameras/src/camera.cc"]}
{"id": "C69", "title": "Lidar projection and back-projection are inverse", "statement": "For the lidar camera, back-projection gives the unit vector with the azimuth and elevation of the keypoint; projecting any point in that direction gives the keypoint back; back-projecting the projection of a point gives its direction; external intrinsics given to project3Functional are used instead of those of the camera.", "quantifier": "all keypoints of the image, points and intrinsics with positive resolutions (exact real arithmetic)", "why_tests_cant": "the seam of the panorama is a single column; continuum of inputs", "anchors": ["aslam_cv_cameras/src/camera-3d-lidar.cc", "aslam_cv_cameras/include/aslam/cameras/camera-3d-lidar-inl.h"]}
{"id": "C70", "title": "Gauss-Newton triangulation minimises the reprojection error", "statement": "The residuals of iterativeGaussNewtonTriangulateFromNViews are the differences between the measurements and the projections of the point its variables stand for, its Jacobian is their derivative, each iteration solves the linearised least squares problem, variables without residuals stay as they are and the point returned for them is seen by every camera at its measurement; failure to determine the point is reported.", "quantifier": "all numbers of views, poses, measurements and iterates (exact real arithmetic)", "why_tests_cant": "iterates are internal; continuum of configurations", "anchors": ["aslam_cv_triangulation/src/triangulation.cc: iterativeGaussNewtonTriangulateFromNViews"]}
{"id": "C71", "title": "The AprilGrid detector reports the right corners", "statement": "For every image, detectTargetInImage returns null iff fewer than min_visible_tags_for_valid_obs usable tags are found or two usable tags have the same id; otherwise the observation holds each corner of each usable tag that the refinement moved by at most the allowed distance, exactly once, with its refined position and the index of the target point at that corner, and nothing else; no array is written out of bounds.", "quantifier": "all boards, images, detections, refinements and detector configurations", "why_tests_cant": "needs crafted detections (duplicates, border, wild ids) that no rendered image gives", "anchors": ["aslam_cv_calibration/src/target-aprilgrid.cc: DetectorAprilGrid::detectTargetInImage"]}
{"id": "C72", "title": "Absolute conic initialisation recovers the focal lengths", "statement": "For undistorted pinhole views of a planar target that determine the intrinsics, taken by a camera whose principal point is the image centre, initFocalLengthAbsoluteConic returns the true focal lengths; views in which corners are missing are ignored.", "quantifier": "all focal lengths, image sizes, poses and sets of views (exact real arithmetic)", "why_tests_cant": "continuum of poses; mixed sets of complete and incomplete views", "anchors": ["aslam_cv_calibration/src/focallength-initializers.cc: initFocalLengthAbsoluteConic"]}
{"id": "C73", "title": "Pose from 3D-3D correspondences", "statement": "On success absoluteMultiPoseRansac3DFeatures returns the transformation with the most inliers among those tried, together with its inliers; with too few correspondences it returns false; each measurement is taken in the frame of its camera.", "quantifier": "all correspondences, thresholds, iteration counts and transformations tried", "why_tests_cant": "the random samples differ from run to run; the property speaks about all of them", "anchors": ["aslam_cv_geometric_vision/src/pnp-pose-estimator.cc: absoluteMultiPoseRansac3DFeatures, ransacTransformationFor3DPoints"]}
{"id": "C74", "title": "Rotating covariances", "statement": "rotateCovariance keeps a covariance symmetric and positive semidefinite, keeps the variance along corresponding directions, respects composition of transformations, and rotating back gives the original.", "quantifier": "all rotations and all 6x6 covariances (exact real arithmetic)", "why_tests_cant": "continuum", "anchors": ["aslam_cv_common/src/covariance-helpers.cc"]}
{"id": "C75", "title": "Bearing vectors and keypoint prediction", "statement": "getNormalizedBearingVectors and getBearingVectorsFromMatches return, in order, the normalised back-projections of the keypoints asked for and reject invalid indices and keypoints that cannot be back-projected; predictKeypointsByRotation predicts each keypoint where its rotated ray projects and marks the others as failed; predictions for a composition of rotations agree with successive predictions.", "quantifier": "all frames, indices, matches and rotations", "why_tests_cant": "continuum of rotations; all index lists, including boundary indices", "anchors": ["aslam_cv_frames/src/visual-frame.cc: getNormalizedBearingVectors", "aslam_cv_matcher/src/match-helpers.cc"]}
{"id": "C76", "title": "Pose estimation from 2D-3D correspondences", "statement": "The pose estimators hand each measurement, back-projected by its own camera, and its landmark to RANSAC, with a threshold that accepts exactly the landmarks projecting within pixel_sigma of the measurement; the transformation is written only on success; keypoints that cannot be back-projected are not used.", "quantifier": "all cameras, rigs, measurements and RANSAC outcomes", "why_tests_cant": "continuum; random outcomes", "anchors": ["aslam_cv_geometric_vision/src/pnp-pose-estimator.cc"]}
{"id": "C77", "title": "Inserting detected keypoints", "statement": "insertCvKeypointsAndDescriptorsIntoEmptyVisualFrame puts exactly the detected keypoints, in order and with the row of each descriptor beside it, into an empty frame; insertAdditionalCvKeypointsAndDescriptorsToVisualFrame appends them, leaving the data of earlier keypoints as they are. Afterwards all keypoint channels and the descriptors have one entry per keypoint.", "quantifier": "all frames, keypoint lists, descriptor matrices and sequences of insertions", "why_tests_cant": "number and type of blocks are unbounded; misalignment of a channel shows only for particular sets of channels", "anchors": ["aslam_cv_tracker/src/tracking-helpers.cc"]}
{"id": "C78", "title": "Output camera of undistorters", "statement": "getOptimalNewCameraMatrix accepts exactly alpha in [0, 1] and positive scales. With alpha 0 every pixel of the output image shows a point of the inscribed rectangle of the undistorted image, with alpha 1 the output image shows all of the image, and in between pixels are interpolated linearly. The result has positive focal lengths. Without distortion and with scale 1 the camera matrix stays as it is.", "quantifier": "all cameras, distortions, alphas and scales (exact arithmetic)", "why_tests_cant": "continuum of cameras and distortions", "anchors": ["aslam_cv_common/include/aslam/common/undistort-helpers.h", "aslam_cv_pipeline/include/aslam/pipeline/undistorter-mapped-inl.h"]}
{"id": "C79", "title": "Undistortion maps", "statement": "buildUndistortMap assigns to each output pixel the input position at which the original camera sees the ray that the output camera sees at that pixel; packing into fixed point keeps positions within half a step.", "quantifier": "all cameras, distortions, output cameras and pixels (exact arithmetic)", "why_tests_cant": "continuum of cameras; all pixels of images of any size", "anchors": ["aslam_cv_common/include/aslam/common/undistort-helpers.h", "aslam_cv_pipeline/src/undistorter-mapped.cc"]}
{"id": "C80", "title": "Visual pipelines", "statement": "processImage returns a frame with the given time stamp, the input camera as raw camera, the output camera as camera, and the image passed in as raw image; the frame keeps its pixels whatever is written to the image later exactly if the pipeline copies images. Keypoints are detected in the undistorted image if there is an undistorter, else in the image itself; each keypoint has an entry in every channel and a descriptor. Images of another size than that of the input camera are rejected.", "quantifier": "all images, cameras, undistorters, detectors and settings", "why_tests_cant": "detector and undistorter results are arbitrary; all combinations of settings", "anchors": ["aslam_cv_pipeline/src/visual-pipeline.cc", "aslam_cv_pipeline/src/visual-pipeline-brisk.cc", "aslam_cv_pipeline/src/visual-pipeline-freak.cc", "aslam_cv_pipeline/src/visual-pipeline-null.cc"]}
{"id": "C81", "title": "Ownership of detectors", "statement": "After construction a detecting pipeline holds a detector and an extractor that stay alive as long as the pipeline, so that processing never uses an object that was destroyed.", "quantifier": "all settings and sequences of construction, processing and destruction", "why_tests_cant": "use after free need not show in a test run", "anchors": ["aslam_cv_pipeline/src/visual-pipeline-brisk.cc", "aslam_cv_pipeline/src/visual-pipeline-freak.cc"]}
{"id": "C82", "title": "Feature tracks", "statement": "A keypoint identifier can only be created for a keypoint that exists and reads its measurement; a track is the sequence of observations added; getDiagonalSqOfDisparityBoundingBox is the squared diagonal of the bounding box of its keypoints; tracks order by length.", "quantifier": "all n-frames, sequences of additions and removals, and keypoint coordinates", "why_tests_cant": "all sequences and coordinates, including negative ones", "anchors": ["aslam_cv_frames/include/aslam/frames/feature-track.h", "aslam_cv_frames/include/aslam/frames/keypoint-identifier.h"]}
{"id": "C83", "title": "Standard deviation", "statement": "stddev returns the square root of the mean squared deviation from the mean; it is zero exactly for constant data and unchanged by adding a constant; without data it aborts.", "quantifier": "all sequences of numbers (exact arithmetic)", "why_tests_cant": "all lengths and values", "anchors": ["aslam_cv_common/include/aslam/common/stl-helpers.h: stddev"]}
{"id": "C84", "title": "Matrices in YAML", "statement": "Encoding an Eigen matrix or vector as a YAML node and decoding the node gives the same matrix; a node whose data does not have the announced size, or is not numeric, is refused; a decoded matrix has the announced size.", "quantifier": "all matrix sizes and entries, and all YAML nodes", "why_tests_cant": "sizes, entries and malformed nodes are unbounded", "anchors": ["aslam_cv_common/include/aslam/common/yaml-serialization-eigen.h", "aslam_cv_common/include/aslam/common/yaml-serialization.h"]}
{"id": "C85", "title": "Cameras in YAML", "statement": "A camera written with serialize and created again from the node by createFromYaml (or read by deserialize into a camera of its class) has the same id, topic, description, image size, line delay, kind of images, intrinsics and distortion; a successful read leaves a camera with valid intrinsics and distortion parameters, and a failed read leaves the camera as it was.", "quantifier": "all cameras and all YAML nodes", "why_tests_cant": "all parameters and all malformed or incomplete nodes", "anchors": ["aslam_cv_cameras/src/camera.cc: loadFromYamlNodeImpl, saveToYamlNodeImpl", "aslam_cv_cameras/src/camera-factory.cc", "aslam_cv_common/src/sensor.cc"]}
{"id": "C86", "title": "Camera rigs in YAML", "statement": "A rig written with serialize and read again has the same id, cameras in the same order, mounting transformations, id map and covariance; a rig that was read successfully has at least one camera and as many transformations; reading replaces what the rig contained; a failed read leaves the rig as it was; T_B_C and T_C_B are the two ways of writing the same mounting.", "quantifier": "all rigs (any number of cameras) and all YAML nodes", "why_tests_cant": "any number of cameras, all nodes, all earlier contents of the rig", "anchors": ["aslam_cv_cameras/src/ncamera.cc: loadFromYamlNodeImpl, saveToYamlNodeImpl, initInternal"]}
{"id": "C87", "title": "Equality of cameras and rigs", "statement": "isEqual of cameras and rigs is an equivalence relation that holds exactly if id, topic, description, class, sizes, line delay, distortion, mask, mounting and covariance are the same and intrinsics agree up to the tolerance; what was written to YAML and read is equal to the original.", "quantifier": "all cameras and rigs", "why_tests_cant": "all pairs and triples of cameras; differences in any member", "anchors": ["aslam_cv_cameras/src/camera.cc: isEqualCameraImpl", "aslam_cv_cameras/src/ncamera.cc: isEqualImpl", "aslam_cv_common/src/sensor.cc: isEqual"]}
{"id": "C88", "title": "Rolling shutter delays", "statement": "rollingShutterDelayNanoSeconds of a keypoint in line k of the image is k line delays and at most maxRollingShutterDelayNanoSeconds, which is the number of lines times the line delay; the delay does not decrease along the shutter; global shutters have delay zero and one line.", "quantifier": "all cameras, line delays and keypoints", "why_tests_cant": "all image sizes, delays and coordinates", "anchors": ["aslam_cv_cameras/include/aslam/cameras/camera.h:440-483", "aslam_cv_cameras/include/aslam/cameras/camera-3d-lidar.h:250-283"]}
{"id": "C89", "title": "Camera masks", "statement": "isMasked answers for every keypoint and camera: true exactly if the keypoint is outside the image or the mask is zero at its pixel; setMask takes exactly grey masks of the image size; the mask of a camera changes only by setMask and clearMask, and a clone has its own mask.", "quantifier": "all cameras, masks, keypoints and sequences of calls", "why_tests_cant": "all coordinates including NaN, all sequences of calls and later writes to shared pixels", "anchors": ["aslam_cv_cameras/include/aslam/cameras/camera.h:188-199,224-231,612-633", "aslam_cv_cameras/src/camera.cc:429-446"]}
{"id": "C90", "title": "Steps of fast explicit diffusion", "statement": "fed_tau_by_process_time and fed_tau_by_cycle_time return, for every stopping time, number of cycles and stability limit, as many steps as they announce; the steps are positive, sum to the time of a cycle, are the fewest that do so, and a cycle is stable: no eigenvalue of the diffusion up to 2/tau_max is amplified over the whole cycle. Reordering only permutes the steps.", "quantifier": "all positive stopping times, numbers of cycles and limits", "why_tests_cant": "the stability product is a statement over a continuum of eigenvalues and all cycle lengths", "anchors": ["aslam_cv_detector/src/kaze/fed.cpp:40-185"]}
{"id": "C91", "title": "Nonlinear diffusion", "statement": "The conductivities are in (0,1], are 1 in flat regions and fall with the gradient. A diffusion step reads and writes within the image, keeps the sum of the image, does not leave its range of values for small steps and does not enlarge its variance; the steps of a whole FED cycle keep the sum and do not enlarge the variance.", "quantifier": "all images and conductivities", "why_tests_cant": "a spectral statement on images of all sizes", "anchors": ["aslam_cv_detector/src/kaze/nldiffusion_functions.cpp:60-240", "aslam_cv_detector/src/kaze/KAZE.cpp:125-215"]}
{"id": "C92", "title": "Implicit diffusion by AOS", "statement": "An AOS step of any length returns the mean of the solutions of the tridiagonal systems along rows and columns, never divides by zero, keeps the sum and the range of the image and does not enlarge its variance, for images of every size.", "quantifier": "all images, conductivities and step sizes", "why_tests_cant": "unconditional stability is a statement on all step sizes", "anchors": ["aslam_cv_detector/src/kaze/KAZE.cpp:2143-2290"]}
{"id": "C93", "title": "Contrast factor and scaling of images", "statement": "The contrast factor is the asked percentile of the gradients up to the width of a bin of the histogram and is positive; computing the minimum and the maximum of an image returns them, and scaling an image maps its values to [0,1], reaching both ends.", "quantifier": "all images, percentiles and numbers of bins", "why_tests_cant": "the histogram has to be right for every distribution of gradients", "anchors": ["aslam_cv_detector/src/kaze/nldiffusion_functions.cpp:150-225", "aslam_cv_detector/src/kaze/utils.cpp:20-145"]}
{"id": "C94", "title": "Extrema of the detector response", "statement": "The detector returns exactly the pixels that pass the threshold and are maxima among their 26 neighbours in space and scale, but for those that are near to a stronger one; the returned ones are not near each other and not outside the border that the descriptor needs.", "quantifier": "all responses, sizes and numbers of levels", "why_tests_cant": "the suppression depends on the order of all candidates", "anchors": ["aslam_cv_detector/src/kaze/KAZE.cpp:270-398", "aslam_cv_detector/src/kaze/nldiffusion_functions.cpp:364-391"]}
{"id": "C95", "title": "Refinement of keypoints", "statement": "Feature_Detection never reads outside the images; each feature is at most one pixel and one level from a maximum of the response, hence in the image; where the response is quadratic the stationary point is found exactly, and keypoints whose stationary point is further away are dropped.", "quantifier": "all responses, image sizes and numbers of levels", "why_tests_cant": "exactness is a statement over all quadratic functions", "anchors": ["aslam_cv_detector/src/kaze/KAZE.cpp:256-267,401-495"]}
{"id": "C96", "title": "KAZE descriptors", "statement": "A descriptor has 64 or 128 numbers and length one, is computed from pixels in the image only wherever the keypoint is, does not depend on the contrast of the image, and turns with the keypoint; the extended descriptors split the sums of the plain ones; sampled values are interpolated between the neighbouring pixels.", "quantifier": "all images, keypoints and kinds of descriptors", "why_tests_cant": "the invariances are over continuous families of images and keypoints", "anchors": ["aslam_cv_detector/src/kaze/KAZE.cpp:498-2142,2321-2344"]}
{"id": "C97", "title": "Filtering of line segments", "statement": "filterSize keeps exactly the lines within the limits, in their order, and returns how many it left out; filterOutAngle and retainAngle together give every line exactly once; aslam::LineSegmentDetector::detect returns exactly the raw lines that are long enough.", "quantifier": "all lists of segments, limits and containers", "why_tests_cant": "the containers and the lists are unbounded, and a wrong loop bound shows only for some containers", "anchors": ["aslam_cv_detector/src/lsd/lsd-opencv.cc:1376-1434", "aslam_cv_detector/src/line-segment-detector.cc:20-35"]}
{"id": "C98", "title": "Intersection of lines", "statement": "intersection says whether the two lines are parallel, and otherwise gives the point that lies on both, up to rounding; it does not depend on the order of the lines.", "quantifier": "all pairs of segments with integer ends", "why_tests_cant": "the space of pairs of segments is too large to sample near parallel", "anchors": ["aslam_cv_detector/src/lsd/lsd-opencv.cc:1436-1467"]}
{"id": "C99", "title": "Comparing directions", "statement": "angle_diff is the least rotation from one angle to the other; isAligned says whether two directions differ by at most the tolerance, whatever full turns they are off; double_equal is reflexive and symmetric.", "quantifier": "all angles and tolerances", "why_tests_cant": "equality up to full turns is over the reals", "anchors": ["aslam_cv_detector/src/lsd/lsd-opencv.cc:105-133,1246-1262"]}
{"id": "C100", "title": "Growing of regions", "statement": "region_grow gives a connected region of different pixels of the image that were free, contain the start, and were aligned with the mean of the pixels before them; exactly they are marked in addition; no neighbour that is free was aligned when it was looked at; it never writes behind the vector and ends.", "quantifier": "all images, marks and starts", "why_tests_cant": "regions depend on the whole image and on the order of visits", "anchors": ["aslam_cv_detector/src/lsd/lsd-opencv.cc:745-796"]}
{"id": "C101", "title": "Rectangle of a region", "statement": "region2rect gives a rectangle around the centroid along the axis about which the inertia is least, as long as the region, oriented with the mean angle of the region; it fails only if the region has no extent.", "quantifier": "all regions and gradients", "why_tests_cant": "minimality of the axis is over all directions", "anchors": ["aslam_cv_detector/src/lsd/lsd-opencv.cc:798-892"]}
{"id": "C102", "title": "Refining of a region", "statement": "refine never fails and always ends; afterwards the marks are those from before the region and those of the new region, nothing that belongs to other regions is touched; if it returns true the new region has the asked density in its rectangle, otherwise only the first pixel is left.", "quantifier": "all images, regions and thresholds", "why_tests_cant": "termination, and the bookkeeping of marks over all executions", "anchors": ["aslam_cv_detector/src/lsd/lsd-opencv.cc:894-979"]}
{"id": "C103", "title": "Gradients of the image", "statement": "ll_angle gives every pixel with a right and a lower neighbour whose gradient is above the threshold the direction of its level line, and no other; the gradient is the mean of the differences in the two rows and columns, exact for linear images.", "quantifier": "all images and thresholds", "why_tests_cant": "exactness over all images", "anchors": ["aslam_cv_detector/src/lsd/lsd-opencv.cc:646-694"]}
{"id": "C104", "title": "List of pixels by gradient", "statement": "ll_angle lists every pixel that can have a direction once, never leaves its vectors, and orders the list by the norm of the gradient up to the width of a bin.", "quantifier": "all images, thresholds and numbers of bins", "why_tests_cant": "the chain is built with pointers over the whole image", "anchors": ["aslam_cv_detector/src/lsd/lsd-opencv.cc:696-743,585-588"]}
{"id": "C105", "title": "Number of false alarms", "statement": "nfa returns minus the logarithm of the number of tests times the probability that at least k of n pixels are aligned, with a precision of ten percent; a positive value means less than one false alarm.", "quantifier": "all numbers of pixels and probabilities", "why_tests_cant": "the error bound of a truncated sum is for all n, k and p", "anchors": ["aslam_cv_detector/src/lsd/lsd-opencv.cc:1208-1244"]}
{"id": "C106", "title": "Counting in rectangles and improving them", "statement": "rect_nfa counts the pixels within the rectangle; rect_improve returns a rectangle within the old one, with the same direction and a value that is no worse.", "quantifier": "all rectangles and images", "why_tests_cant": "all rectangles, and any measure of quality", "anchors": ["aslam_cv_detector/src/lsd/lsd-opencv.cc:981-1206"]}
{"id": "C107", "title": "Detection of line segments", "statement": "flsd never fails; the segments stand for regions that have no pixel in common; with refinement each region has the asked density in its rectangle, with the test of false alarms each value is above the threshold; the ends are the pixels in which the ends of the rectangle lie.", "quantifier": "all images and accepted parameters", "why_tests_cant": "exclusiveness of pixels over all regions is an invariant of the whole run", "anchors": ["aslam_cv_detector/src/lsd/lsd-opencv.cc:511-643", "aslam_cv_detector/src/line-segment-detector.cc:12-16"]}
{"id": "C108", "title": "Numerical differentiation", "statement": "getJacobianNumerical gives in every entry the difference quotient of its scheme along this input, all other inputs at their values, and returns true exactly if the function could be evaluated at all points; the error is of first, second and fourth order in the step, with the step that is given; a test of a Jacobian that passes bounds the error of the analytical Jacobian.", "quantifier": "all functions, inputs, schemes and steps", "why_tests_cant": "tests use this code to judge others; its error bound is for all smooth functions", "anchors": ["aslam_cv_common/include/aslam/common/numdiff-jacobian-tester.h:47-60", "aslam_cv_common/include/aslam/common/numdiff-jacobian-tester.h:79-121", "aslam_cv_common/include/aslam/common/numdiff-jacobian-tester.h:144-211"]}
{"id": "C109", "title": "Comparing images", "statement": "gtest_catkin::ImagesEqual succeeds exactly if the two images have the same type and size and all values of all channels are equal, or for floating point differ by at most the tolerance; it never reads outside the images, is symmetric, an image equals itself, and the positions in the message are those of the pixels that differ.", "quantifier": "all images of all depths, channels and sizes and all tolerances", "why_tests_cant": "tests rely on this predicate; whether it misses a difference shows only for the images it misses it for", "anchors": ["aslam_cv_common/include/aslam/common/opencv-predicates.h:19-147"]}
{"id": "C110", "title": "Rigs for tests", "statement": "createTestNCamera makes a valid rig of any number of distinct cameras with distinct ids and distinct places; createSurroundViewTestNCamera makes four cameras at the given positions in the body frame, looking outwards along the given axes, in a plane.", "quantifier": "all numbers of cameras, all generated ids", "why_tests_cant": "the rigs are inputs of tests; nothing compares their poses with the comments", "anchors": ["aslam_cv_cameras/src/random-camera-generator.cc:11-85"]}
{"id": "C111", "title": "Focal length from vanishing points", "statement": "initFocalLengthVanishingPoints returns true only with a usable focal length: the median of the guesses from all pairs of rows of complete observations; observations that are not complete are ignored; for an equidistant camera the focal length is exact, and the principal point is the middle of the image; the algorithm is chosen by projection and distortion.", "quantifier": "all lists of observations, all images, whatever order nth_element leaves", "why_tests_cant": "the claim is for all observations; NaN arises only for exactly straight rows, which rendered tests avoid", "anchors": ["aslam_cv_calibration/src/focallength-initializers.cc:28-104", "aslam_cv_calibration/include/aslam/calibration/focallength-initializers-traits-inl.h:14-43"]}
{"id": "C112", "title": "Raw image coordinates", "statement": "toRawImageCoordinates maps the keypoint of a point to the keypoint of that point in the image of the raw camera: the place the pixel was taken from when the image was undistorted. The vectorised function gives the same for every keypoint, keypoints without a ray are reported as invalid, and an index that is out of range or a missing raw camera is found.", "quantifier": "all points, keypoints, lists of keypoints and indices; pinhole and unified cameras with any distortion", "why_tests_cant": "tests use one pair of cameras; agreement with the map of the undistorter, backward rays and huge indices are not sampled", "anchors": ["aslam_cv_frames/src/visual-frame.cc:171-177", "aslam_cv_frames/src/visual-frame.cc:486-520", "aslam_cv_frames/include/aslam/frames/visual-frame.h:26-35"]}
{"id": "C113", "title": "Random keypoints, random visible points and border rays", "statement": "createRandomKeypoint returns a keypoint of the image that has a ray, away from the border; createRandomVisiblePoint returns a visible point at the depth asked for, a negative depth meaning a random one; the border rays are the rays of the corners and edges and enclose those of all keypoints of the image.", "quantifier": "all cameras with valid parameters, all image sizes, all draws and depths", "why_tests_cant": "tests are built on these functions and see the draws of one seed; cameras with xi = 1 or a principal point outside do not occur in them", "anchors": ["aslam_cv_cameras/src/camera-pinhole.cc:166-210", "aslam_cv_cameras/src/camera-unified-projection.cc:224-292", "aslam_cv_cameras/src/camera-3d-lidar.cc:76-119", "aslam_cv_cameras/include/aslam/cameras/camera.h:539-544"]}
{"id": "C114", "title": "Levels of the KAZE scale space and the response of its detector", "statement": "Every octave has all its sublevels, with scales and times that grow from level to level and double, respectively quadruple, from octave to octave; the times between levels are positive and sum up to the whole time; the response of a level is the determinant of the Hessian of its image, normalized with the fourth power of the scale, without regard to the brightness, to its sign, or to which axis is called x; it is computed for all options.", "quantifier": "all images, all positive offsets, all numbers of octaves and sublevels", "why_tests_cant": "the project has no test of the KAZE code; a response that is off by a power of the scale still finds keypoints, only at the wrong levels, and the array of the kernel is overrun only for many octaves", "anchors": ["aslam_cv_detector/src/kaze/KAZE.cpp:44-96", "aslam_cv_detector/src/kaze/KAZE.cpp:197-253", "aslam_cv_detector/src/kaze/nldiffusion_functions.cpp:204-254"]}
{"id": "C115", "title": "Main orientation of KAZE keypoints", "statement": "The orientation of a keypoint is the direction of the longest sum of weighted gradients over the windows of a sixth of a turn; every gradient closer than six steps to the keypoint counts in the windows that have its direction, the more the closer it is; the orientation lies between zero and a full turn, does not depend on the contrast of the image, and is the common direction if all gradients agree.", "quantifier": "all images of derivatives, all keypoints, all exact arc tangents, all positive gains", "why_tests_cant": "Tests compare descriptors of a few images; the sums depend on every gradient around the keypoint, and gradients exactly along an axis are rare in natural images but common in synthetic ones.", "anchors": ["aslam_cv_detector/src/kaze/KAZE.cpp:642-713"]}
{"id": "C116", "title": "The nonlinear scale space of KAZE", "statement": "For all options and all images, creating the scale space gives as many levels as were asked for; the first is the smoothed image, and every other one is diffused from the one before, with conductivities between 0 and 1 from the gradients of the image; sizes and mean brightness stay the same and the variance does not grow from level to level; the smoothed image of a level, from which keypoints are detected, is that of its own image; contrast and brightness of the image only change contrast and brightness of the levels; options that are not supported are reported by the returned value.", "quantifier": "all options, all images", "why_tests_cant": "The composition of contrast factor, conductivities, time steps and diffusion is only tested on a few natural images with the default options; flat images, other numbers of sublevels, other schemes and the relation between levels are not tested.", "anchors": ["aslam_cv_detector/src/kaze/KAZE.cpp:26-195", "aslam_cv_detector/src/kaze/nldiffusion_functions.cpp:31-55", "aslam_cv_detector/include/kaze/KAZEConfig.h:47-104"]}
{"id": "C117", "title": "Matches, inliers and ground truth of the KAZE utilities", "statement": "For all lists of neighbours, matches, homographies and files: the ratio test keeps exactly the keypoints whose nearest neighbour is nearer than the second nearest times the ratio, together with the points of both images; the inliers are exactly the matches that the estimator flags or that a homography maps to within the error, in order and each once, whatever the scale of the homography and also if the vector is filtered in place; a homography is read from a file up to scale, and files that do not hold one are reported; the saved file has a line for every keypoint with its position, its size and its descriptor; the image of the inliers shows both images and joins the two points of every inlier.", "quantifier": "all lists of matches, all homographies, all files, all images", "why_tests_cant": "The evaluation of the detector depends on these functions, and no test calls them: results that are wrong by a few matches look plausible.", "anchors": ["aslam_cv_detector/src/kaze/utils.cpp:101-385"]}
{"id": "C118", "title": "Drawing and comparing line segments", "statement": "For all lists of segments and all images: the comparison counts the pixels on which segments of exactly one of the lists are drawn, so that it is zero for equal lists, symmetric and satisfies the triangle inequality, and shows the lists in different colours; drawing leaves the pixels without segments as they are and shows every segment; all this however the segments are stored; the detection returns an entry of every requested output for every segment, and rejects images it cannot handle.", "quantifier": "all lists of segments, all images, all requested outputs", "why_tests_cant": "No test compares or draws segments; the functions are used by a person who looks at the result.", "anchors": ["aslam_cv_detector/src/lsd/lsd-opencv.cc:521-545", "aslam_cv_detector/src/lsd/lsd-opencv.cc:1265-1374"]}
{"id": "C119", "title": "Drawing keypoints and matches of frames", "statement": "For all frames and all matches: the image shows the raw image of the frame with a circle at every keypoint of the type, also if there are none, or with a circle and a line for every match between the keypoints of the type; indices out of range are detected.", "quantifier": "all frames with any number of descriptor types, all matches", "why_tests_cant": "Nothing tests the images drawn, and with one type of descriptors the indices among all keypoints and among those of the type are the same.", "anchors": ["aslam_cv_visualization/src/basic-visualization.cc:8-61"]}
{"id": "C120", "title": "The pose of a calibration target", "statement": "For all targets, observations and cameras: the pose of the camera with respect to the target is estimated from each observed corner together with the point of the target that has its id, with the given tolerance in pixels and the given number of iterations; exact observations give the exact pose; without success the pose of the caller is not changed; the result is refined if this is asked for; inputs that make no sense are rejected.", "quantifier": "all targets, all observations, all cameras, all options", "why_tests_cant": "The tests of the calibration package check the target and the detector only; estimation from a pose that is known is not tested, and whether a refinement took place cannot be seen from a result that is within the tolerance.", "anchors": ["aslam_cv_calibration/src/target-algorithms.cc:9-49", "aslam_cv_geometric_vision/src/pnp-pose-estimator.cc:17-61"]}
{"id": "C121", "title": "Making and changing cameras", "statement": "For all arguments and all sequences of changes: createCamera returns the camera that the arguments describe, or the process ends with a message if the id, the model, the intrinsics or the coefficients are not acceptable; a camera that was made is valid and stays so; its model, id, numbers of parameters and size of its mask agree with each other at all times; a copy is equal to the original; setRandom gives the test camera of the class.", "quantifier": "all ids, intrinsics, coefficients, sizes, types and sequences of setter calls", "why_tests_cant": "Tests make a few cameras with good arguments; they do not apply every sequence of changes, nor do they see what is accepted but should not be.", "anchors": ["aslam_cv_cameras/src/camera-factory.cc:17-64", "aslam_cv_cameras/include/aslam/cameras/camera-factory.h:24-55", "aslam_cv_cameras/include/aslam/cameras/camera.h:541-600", "aslam_cv_cameras/src/camera-pinhole.cc:20-45", "aslam_cv_cameras/src/camera-pinhole.cc:236-280", "aslam_cv_common/src/sensor.cc:5-36"]}
{"id": "C122", "title": "The accessors of visual frames act on independent slots", "statement": "For measurements, uncertainties, orientations, scores, scales, 3D positions, time offsets, track ids and the raw image, the accessors of VisualFrame behave as nine independent slots: has… is true exactly if the data has been set (or swapped in) and, for the image, not released since; get… and get…Mutable return what was last set, swapped in or written through the mutable pointer, and abort if there is none; swap… hands out the previous value; nothing that is done to one field changes another field, the descriptors or channels of the user. Access by index returns the entry, and for an index out of range the program aborts; so it does for a null pointer.", "quantifier": "all sequences of calls of has, get, getMutable (read and write), get by index, set, swap and releaseRawImage on a new frame; all size_t indices", "why_tests_cant": "There are about sixty small functions, each naming its channels by hand; tests set and read a few of them in isolation, on short sequences, and never with indices above 2^31.", "anchors": ["aslam_cv_frames/src/visual-frame.cc:50-214", "aslam_cv_frames/src/visual-frame.cc:236-304", "aslam_cv_frames/src/visual-frame.cc:335-439", "aslam_cv_common/include/aslam/common/channel-declaration.h:26-94"]}
{"id": "C123", "title": "YAML files", "statement": "Writing a camera, a rig or a matrix to a YAML file and reading the file gives it back; an existing file is overwritten and no other file is touched; after any number of writes a file gives what was written to it last; a failed write leaves the old file as it was and is reported; a file that is missing or malformed is refused with false and leaves the object as it was, without an exception.", "quantifier": "all disks, file names, objects and sequences of writes; all behaviours of the operating system (files that cannot be opened, writes that fail) and, for round trips, every yaml-cpp that parses what it has emitted", "why_tests_cant": "Tests write one object to one temporary file; full disks, missing permissions and interrupted or malformed files do not occur in them.", "anchors": ["aslam_cv_common/include/aslam/common/yaml-file-serialization.h:20-43", "aslam_cv_common/include/aslam/common/yaml-serialization.h:58-97"]}
{"id": "C124", "title": "Hashes of matrices", "statement": "Matrices that compare equal have the same std::hash, so that unordered containers keyed by matrices find exactly what was put in under an equal matrix, whatever collides; matrices that differ in their last element, in particular scalars, are told apart if the elements are.", "quantifier": "all matrices, all element types whose hash respects equality, all sequences of insertions and numbers of buckets", "why_tests_cant": "A test hashes a few matrices; it cannot show that equal matrices never differ in their hash nor that collisions are harmless.", "anchors": ["aslam_cv_common/include/aslam/common/eigen-hash.h:10-22", "aslam_cv_common/include/aslam/common/memory.h:24-38"]}
{"id": "C125", "title": "Aligned unique pointers destroy and free exactly once", "statement": "An object made by aligned_unique is constructed once; it is held by exactly one AlignedUniquePtr until it is destroyed once and its memory is given back once; after moves, resets, conversions to base classes and the end of the scope nothing is leaked, destroyed twice or given back twice.", "quantifier": "all programs of making, moving, converting, resetting and leaving the scope", "why_tests_cant": "Leaks and double frees depend on the sequence of operations and on rare events such as a constructor that throws; tests run a few sequences and do not look at the heap.", "anchors": ["aslam_cv_common/include/aslam/common/memory.h:46-81"]}
{"id": "C126", "title": "Typed ids in messages and in print", "statement": "An id written to a protobuf message and read back is the same id, whatever message and object held before; only messages of two words are read and correspondsTo is true exactly for the message of the id; conversions between id types keep the bytes; equal ids hash alike in sets; printing shows an id so that different ids can be told apart; salts of the seed do not depend on their order; random ids use every number of the generator once.", "quantifier": "all ids, all messages, all containers of ids, all lists of salts, all generators and numbers of draws", "why_tests_cant": "There are 2^128 ids and any message; a test prints and converts a few.", "anchors": ["aslam_cv_common/include/aslam/common/unique-id.h:90-257", "aslam_cv_common/include/aslam/common/internal/unique-id.h:11-33", "aslam_cv_common/include/aslam/common/hash-id.h:52-56, 127-135"]}
{"id": "C127", "title": "A sensor has a valid id all its life", "statement": "A sensor has the id, topic and description it was made with or given; copies are equal and independent; reading from YAML takes the id, topic and description of the node, keeps texts that are missing and generates an id that is missing; reading that fails keeps the sensor; at every time its id is valid, so that getId returns it.", "quantifier": "all programs that make, copy, assign, change and read sensors, all YAML nodes", "why_tests_cant": "A test makes a few sensors; it does not try malformed ids on sensors that live on.", "anchors": ["aslam_cv_common/include/aslam/common/sensor.h:26-75", "aslam_cv_common/src/sensor.cc:5-74"]}
{"id": "C128", "title": "KAZE descriptors of a set of keypoints do not depend on the threads that compute them", "statement": "KAZE::Compute_Descriptors makes, for each of the twelve descriptor types, a matrix with one row per keypoint (128 columns for the extended types, 64 for the others), in which row i is the descriptor named by the type of keypoint i in the level of the scale space it was found in; for the types that are not upright it first sets the angle of the keypoint to its main orientation and changes nothing else. However the iterations are distributed over threads and interleaved, keypoints and matrix are the same as for the loop run in order, no row is written beyond its end, and the row of a keypoint does not depend on the other keypoints. Upright descriptors do not depend on the angle of the keypoint, and computing descriptors again for the keypoints of a first call changes nothing. Keypoints whose level is not one of the scale space are rejected.", "quantifier": "for all twelve types, all lists of keypoints with levels in the scale space, all scale spaces, all functions for atan2, and all interleavings of the iterations", "why_tests_cant": "Interleavings of OpenMP threads cannot be enumerated by tests, and a race or a row written into its neighbour shows only for some of them.", "anchors": ["aslam_cv_detector/src/kaze/KAZE.cpp:498-645"]}
{"id": "C129", "title": "Undistorters", "statement": "createMappedUndistorter makes, for every pinhole camera or camera with a mirror, every alpha in [0, 1] and every positive scale, an undistorter whose input camera is a copy of the camera and whose output camera is of the same kind (for createMappedUndistorterToPinhole: a pinhole camera), has a new id, no distortion and the scaled image size, and fits this image; other cameras and arguments are rejected. The constructor accepts exactly maps of the size of the output camera, among them all that buildUndistortMap makes, and rejects null cameras. processImage accepts exactly images of the size of the input camera; the output image has the size of the output camera, and with linear interpolation each of its pixels is the value of the input image, interpolated between the four pixels around, at the place where the input camera sees what the output camera sees at that pixel. With alpha 0 every output pixel shows a part of the input image.", "quantifier": "all cameras, distortions, alphas, scales, maps, images and pixels (exact arithmetic, except where single precision is stated)", "why_tests_cant": "continuum of cameras and scales, all images; the size mismatch occurs for particular scales only", "anchors": ["aslam_cv_pipeline/include/aslam/pipeline/undistorter-mapped-inl.h:10-92", "aslam_cv_pipeline/src/undistorter-mapped.cc:11-65", "aslam_cv_common/include/aslam/common/undistort-helpers.h:165-220"]}
{"id": "C130", "title": "Identifiers of keypoints over time", "statement": "KeypointIdentifier::create succeeds exactly for a keypoint that exists in a frame that is set, and the measurement can be read at once. Whatever a program then does with frames, n-frames and handles, short of destroying the identifier, its indices stay, its n-frame stays alive, and asking it for the frame, the measurement, the descriptor or the camera is never undefined: it gives what is in the slot at that moment or stops the process. As long as neither the slot nor the columns of that frame are assigned, it gives the same value, and references to the columns stay good, also after all handles are dropped. An identifier goes on referring to the keypoint it was made for, that keypoint has a descriptor and the camera of its frame, and references stay good as long as the identifier. Nothing without an owner stays in memory.", "quantifier": "all programs: sequences of calls on any number of frames, n-frames, rigs and identifiers", "why_tests_cant": "the properties are about all interleavings of ownership changes; dangling references are not seen by a test that happens to read freed memory", "anchors": ["aslam_cv_frames/include/aslam/frames/keypoint-identifier.h:28-80", "aslam_cv_frames/src/visual-nframe.cc:56-98", "aslam_cv_frames/src/visual-nframe.cc:134-151", "aslam_cv_frames/src/visual-frame.cc:171-177", "aslam_cv_frames/src/visual-frame.cc:216-251", "aslam_cv_frames/src/visual-frame.cc:441-454"]}
{"id": "C131", "title": "Reports of timings and statistics", "statement": "A duration is printed as hours, minutes and seconds to the nearest millionth, so that it can be told from the text and two durations with one text are within a millionth of a second of one another; minutes and seconds are below 60. Whatever tags have been asked for and whenever timing was reset, Timing::Print and Statistics::Print give each tag asked for since the latest reset exactly one row, in order, with the figures of that tag and columns in line; tags without samples have no figures. The YAML file written from them, read again, gives the label and the figures of every tag that has samples, under distinct labels.", "quantifier": "for all durations, tags, figures, histories of lookups and resets, and roundings of quotients to nearest", "why_tests_cant": "Tests print a handful of short durations to the console and look at none of it; nothing reads the files. Rounding up to 60 seconds, column widths after resets and colliding labels need values tests do not have.", "anchors": ["aslam_cv_common/src/timer.cc:172-264", "aslam_cv_common/src/statistics.cc:171-276"]}
{"id": "C132", "title": "Detectors and extractors live as long as their pipelines", "statement": "BRISK and FREAK pipelines, line segment detectors and April grid detectors make the detector and extractor they use from their settings, own them, and give them up when they are destroyed or initialized again: in every program that makes, initializes again, copies, uses and destroys such objects in any order, each image is processed with a living detector (and extractor, if there are keypoints) made with the latest settings of that pipeline, nothing is deleted twice, and when all pipelines are gone so are all detectors.", "quantifier": "for all programs of constructors, initializations, copies, images and destructors over any number of pipelines, and all settings", "why_tests_cant": "The tests process images with one BRISK pipeline, and none makes a FREAK pipeline; memory that is used after it was freed mostly keeps its contents for a while, so a test may pass all the same.", "anchors": ["aslam_cv_pipeline/src/visual-pipeline-brisk.cc:10-59", "aslam_cv_pipeline/src/visual-pipeline-freak.cc:11-61", "aslam_cv_detector/src/line-segment-detector.cc:12-18", "aslam_cv_calibration/src/target-aprilgrid.cc:89-98"]}
{"id": "C133", "title": "Automatic differentiation of projections is exact", "statement": "The templated project3Functional of the pinhole camera, given jets (numbers that carry derivatives) of any functions for the intrinsics, the distortion coefficient and the point, returns the jets of the keypoint as a function of the same variables: the same status and value as with double, the same as the virtual function, and the exact derivatives, without distortion and with fisheye distortion, also at the centre of the image. Wrong numbers of parameters abort.", "quantifier": "All numbers of variables, all differentiable functions of them for every input, all values of intrinsics, coefficients and points", "why_tests_cant": "Tests evaluate derivatives at a few points against finite differences; whether the chain rule is applied correctly in every branch, and at the limits of the branches, is a statement about all functions and points.", "anchors": ["aslam_cv_cameras/include/aslam/cameras/camera-pinhole-inl.h:14-65", "aslam_cv_cameras/include/aslam/cameras/distortion-fisheye-inl.h:9-63", "aslam_cv_cameras/include/aslam/cameras/distortion-null.h:68-81", "aslam_cv_cameras/include/aslam/cameras/camera-inl.h:16-25"]}
{"id": "C134", "title": "Scoped locks", "statement": "Any number of threads use ScopedReadLock and ScopedWriteLock on one ReaderWriterMutex or ReaderFirstReaderWriterMutex. While a write lock is in scope, no other lock on the mutex is. A lock that was given stays until its destructor or a move. Moving a lock does not touch the mutex: the new lock has it, and the destructor of the old one does nothing. When all locks are out of scope the mutex is not in use and everything that was waiting has been let in. If no thread has two locks at a time there is no deadlock. A thread may have several locks in nested scopes, and may upgrade its read lock within the scope.", "quantifier": "for all numbers of threads and locks, all interleavings of constructors, moves and destructors with spurious wake-ups, and both classes of mutex", "why_tests_cant": "Deadlocks need a writer to arrive between two read locks of another thread; tests take one lock per thread.", "anchors": ["aslam_cv_common/src/reader-writer-lock.cc:87-111", "aslam_cv_common/include/aslam/common/reader-writer-lock.h:42-64"]}
{"id": "C135", "title": "What is printed about tracks, cameras, frames and results says what they are", "statement": "Printing a list of tracks gives a table with one row for each track, in order, with its identifier, the camera of its first observation and its length, from which these can be read back; a track alone is printed with all its observations, measurements in fixed notation with three digits; the tables of a rig are headed by the index of the camera. Cameras are printed with label, identifier, line delay, size, intrinsics and distortion, frames with label, identifier, time, camera and channels, and what is shown can be read back. Results of projections and triangulations and types of cameras and distortions are printed with their names. Printing never aborts and leaves the format of the stream as it was.", "quantifier": "All lists of tracks, cameras, frames, results, types and streams with any format, text and width.", "why_tests_cant": "Tests look at a few objects on a stream with the default format; that the text determines the object, and what happens with empty tracks or on streams with other formats, concerns all objects and streams.", "anchors": ["aslam_cv_frames/include/aslam/frames/feature-track-inl.h:7-58", "aslam_cv_frames/src/visual-frame.cc:472-484", "aslam_cv_common/include/aslam/common/channel.h:133-145", "aslam_cv_cameras/src/camera.cc:16-39", "aslam_cv_cameras/src/camera.cc:67-75", "aslam_cv_cameras/src/camera-pinhole.cc:224-233", "aslam_cv_cameras/src/camera-unified-projection.cc:308-319", "aslam_cv_cameras/src/camera-3d-lidar.cc:132-140", "aslam_cv_cameras/src/distortion-radtan.cc:132-142", "aslam_cv_cameras/src/distortion-equidistant.cc:187-197", "aslam_cv_cameras/src/distortion-fisheye.cc:162-169", "aslam_cv_cameras/include/aslam/cameras/distortion-null.h:173-177", "aslam_cv_cameras/include/aslam/cameras/camera-inl.h:41-50", "aslam_cv_cameras/include/aslam/cameras/distortion-inl.h:5-16", "aslam_cv_triangulation/include/aslam/triangulation/triangulation.h:41-52"]}
{"id": "C136", "title": "Calibration targets are what the files that describe them say", "statement": "TargetConfiguration::fromYaml returns the rows, columns, size of tags and, as a multiple of that size, the space between tags that the file says; a target can be made from what it returns, and a board that is written to a file comes back. Files that are missing, are not YAML, describe another kind of target, or lack one of the values or give one that is not positive are rejected.", "quantifier": "All files, as trees of nodes, and all boards.", "why_tests_cant": "Tests read one complete file; that every incomplete file is rejected is about all files, and values that are not initialised look right by chance.", "anchors": ["aslam_cv_calibration/src/target-aprilgrid.cc:20-44", "aslam_cv_calibration/include/aslam/calibration/target-aprilgrid.h:38-58", "aslam_cv_common/include/aslam/common/yaml-serialization.h:28-48"]}
{"id": "C137", "title": "Pipelines for several cameras that are made fit together", "statement": "A VisualNPipeline is made exactly from at least one pipeline and one thread, a tolerance that is not negative, and pipelines that, in the order of the cameras, take images of the very cameras of the input rig and make frames of the very cameras of the output rig; everything else is refused when it is made. From then on, whatever images come in whatever order, no image ends the program because its frame does not fit the n-frame it is put into, and every frame is in the place of its own camera. The test pipeline is made for all numbers of cameras but zero.", "quantifier": "All rigs, pipelines, numbers of threads, tolerances and sequences of images.", "why_tests_cant": "Tests make pipelines that fit; that every one that does not is refused, and that none that is made fails later for whatever sequence of images, is about all of them.", "anchors": ["aslam_cv_pipeline/src/visual-npipeline.cc:17-48", "aslam_cv_pipeline/src/visual-npipeline.cc:215-275", "aslam_cv_pipeline/src/visual-npipeline.cc:338-353", "aslam_cv_pipeline/src/visual-pipeline.cc:28-57", "aslam_cv_frames/src/visual-nframe.cc:134-141"]}
{"id": "C138", "title": "Random rigs and empty frames for tests are complete", "statement": "NCamera::setRandom makes a valid rig of one to fifteen new cameras with different ids whose ids and indices agree, whatever the rig was before, and leaves other cameras as they are; two random rigs differ. createEmptyTestVisualNFrame makes an n-frame with a frame for each camera of the rig, of that camera, at the given time, which is also its earliest and latest time; the frames have no keypoints and no descriptors but the channels for them; what there was before is as it was.", "quantifier": "All random numbers and generators of ids, all rigs, times and frames that exist.", "why_tests_cant": "Tests use these to make what they test; a rig that is wrong for one of many random numbers, or a frame that lacks a channel, shows up somewhere else.", "anchors": ["aslam_cv_cameras/src/ncamera.cc:358-394", "aslam_cv_common/src/sensor.cc:33-36", "aslam_cv_frames/src/visual-frame.cc:555-570", "aslam_cv_frames/src/visual-nframe.cc:220-235"]}
{"id": "C139", "title": "Undistorting gives the point back", "statement": "For lenses of moderate distortion, undistort ends within its 30 rounds at a point that is distorted to the given one, and undistort(distort(p)) is p, up to an error that is bounded by a multiple of the tolerance: for the radial-tangential model in a disc in which the lens changes lengths by a third at most, in which also no two points are distorted to the same one and every point of a disc 7/10 as large is reached; for the equidistant model at all points outside of the special region at the centre up to which the seen distance from the centre grows less and less, as without coefficients and with barrel distortion. Projecting and back-projecting with a pinhole camera or a camera with a mirror are inverse up to that error.", "quantifier": "All coefficients, points and tolerances within the stated bounds.", "why_tests_cant": "That an iteration converges for all lenses and points of a continuous family, and how far off it can end, cannot be seen from samples.", "anchors": ["aslam_cv_cameras/src/distortion-radtan.cc:14-65", "aslam_cv_cameras/src/distortion-radtan.cc:93-118", "aslam_cv_cameras/src/distortion-equidistant.cc:14-107", "aslam_cv_cameras/src/distortion-equidistant.cc:144-173", "aslam_cv_cameras/src/camera-unified-projection.cc:54-118"]}
{"id": "C140", "title": "Occupancy grid with coordinates of type double", "statement": "With coordinates and sizes of type double, whose quotients are rounded, every coordinate inside the input range is put in an existing cell, the one that contains it.", "quantifier": "All sizes, all double coordinates, rounding to nearest with any rule for ties.", "why_tests_cant": "Whether rounding ever moves a point over the border of a cell, or the number of cells, depends on single values out of 2^64; tests do not hit them.", "anchors": ["aslam_cv_common/include/aslam/common/occupancy-grid-inl.h:13-37", "aslam_cv_common/include/aslam/common/occupancy-grid-inl.h:57-63", "aslam_cv_common/include/aslam/common/occupancy-grid-inl.h:366-393"]}
{"id": "C141", "title": "Queries of statistics report the samples", "statement": "The queries of Statistics and Timing for a handle or tag return, for exactly the samples added through the handle, their number, the latest, the smallest and the largest one, their sum, mean and variance, the latest, smallest, largest and mean time between them, and with GetHz how many were added per second; without samples there are defined values. Samples can be added up to the limit of the counters.", "quantifier": "All sequences of lookups, samples, times of the clock and resets.", "why_tests_cant": "The figures depend on the whole history of all handles; a window of a hundred samples is only left in long runs.", "anchors": ["aslam_cv_common/include/aslam/common/statistics/statistics.h:29-119", "aslam_cv_common/src/statistics.cc:66-167", "aslam_cv_common/src/timer.cc:104-170"]}
{"id": "C142", "title": "The logarithm of the gamma function is accurate", "statement": "At every integer that it is asked about by the line detector, log_gamma is the logarithm of the factorial up to 1e-8, whichever of the two formulas is used; so what the code computes as the number of false alarms of a rectangle differs by at most 1e-8 from what it would be with exact factorials.", "quantifier": "All factorials, all numbers of pixels and of aligned pixels, all probabilities up to one half.", "why_tests_cant": "There are infinitely many integers; tests compare a few values with tables. An error in a late digit of a coefficient shows in no detection test.", "anchors": ["aslam_cv_detector/src/lsd/lsd-opencv.cc:82", "aslam_cv_detector/src/lsd/lsd-opencv.cc:141-170", "aslam_cv_detector/src/lsd/lsd-opencv.cc:1208-1244"]}
{"id": "C143", "title": "Channel groups can be used from several threads", "statement": "Calls on channel groups that take the mutexes of the groups have, whatever the order in which the threads run, the results and effects they would have had one after the other; no two threads work on the same group at once; threads never wait for each other for ever; and threads that set different channels of a frame do not disturb each other: each channel ends with the value set last.", "quantifier": "All programs of all numbers of threads, all groups, all interleavings of the steps in which mutexes are taken, groups read and written, and mutexes released.", "why_tests_cant": "The bad interleavings are rare and depend on the scheduler; a test sees one interleaving per run, and two threads that compare two groups in opposite order hang only if they meet between two instructions.", "anchors": ["aslam_cv_common/src/channel.cc:15-47", "aslam_cv_common/include/aslam/common/channel.h:118-148", "aslam_cv_common/include/aslam/common/channel-declaration.h:26-137", "aslam_cv_frames/src/visual-frame.cc:243-251"]}
{"id": "C144", "title": "Blocking calls of the pipeline wait exactly as long as they have to", "statement": "getNextBlocking and getLatestAndClearBlocking wait only while no n-frame is complete, processImageBlockingIfFull only while the output queue has reached the limit; a thread that need not wait is never left asleep, and its call returns. A getter that returns true has taken one n-frame (the latest variant: all), and false is returned exactly after shutdown; a call that begins after shutdown returns false whatever is in the queue. With processImageBlockingIfFull alone the output queue stays within the limit, but for n-frames being processed.", "quantifier": "All numbers of threads, all calls and limits, all interleavings with workers, other getters, spurious wake-ups and shutdown.", "why_tests_cant": "A missed notification shows only in one of very many interleavings, and hanging for ever is not observable in a finite test.", "anchors": ["aslam_cv_pipeline/src/visual-npipeline.cc:55-200", "aslam_cv_pipeline/src/visual-npipeline.cc:317-330", "aslam_cv_pipeline/include/aslam/pipeline/visual-npipeline.h:83-138"]}
{"id": "C145", "title": "Cameras triggered together lose no n-frame", "statement": "If all cameras of the rig take an image at each of a series of triggers (time stamps within half the tolerance of the trigger, triggers further apart than the tolerance), then each trigger yields exactly one n-frame with exactly the images of that trigger, and once all images have been processed all n-frames are ready or taken and none is left in progress. If images are handled trigger by trigger, n-frames come out in chronological order. With waitForAllWorkToComplete this holds for any number of processing threads.", "quantifier": "All rigs, triggers, time stamps, tolerances, orders in which images are handled, n-frames taken in between, and all runs of the thread pool.", "why_tests_cant": "The number of orders in which worker threads handle the images grows factorially; the loss needs one slow thread at a particular moment.", "anchors": ["aslam_cv_pipeline/src/visual-npipeline.cc:94-148", "aslam_cv_pipeline/src/visual-npipeline.cc:215-335", "aslam_cv_common/src/thread-pool.cc:27-135"]}
{"id": "C146", "title": "Track ids identify chains of matches", "statement": "After any successful calls of applyMatchesToFrames from fresh frames and a fresh id provider, a keypoint has a track id exactly if some call matched it, and two keypoints have the same track id exactly if they are linked by a chain of matches. Which keypoints share an id does not depend on the order of calls and matches. Valid matches between two frames can always be applied, joining tracks where needed.", "quantifier": "All sequences of calls between any frames, all matches; up to 2^31 matches.", "why_tests_cant": "Chains over any number of frames and all orders of calls; tests look at two or three frames.", "anchors": ["aslam_cv_tracker/src/track-manager.cc:14-80", "aslam_cv_tracker/include/aslam/tracker/track-manager.h:13-100"]}
{"id": "C147", "title": "The occupancy mask marks full cells and the surroundings of points", "statement": "getOccupancyMask returns an image of the size of the input range in which a pixel is 0 exactly if it lies in a cell with the maximum number of points or within the given radius of a point, and 255 otherwise; so a keypoint detected at a pixel that is not masked lies in a cell with room and can be added without replacing another one.", "quantifier": "All grids, points, cell sizes, radii and limits; all places in the image.", "why_tests_cant": "Depends on how real cell borders and radii fall on the pixel raster; a test looks at a few sizes.", "anchors": ["aslam_cv_common/include/aslam/common/occupancy-grid-inl.h:302-335", "aslam_cv_common/include/aslam/common/occupancy-grid-inl.h:65-90"]}
{"id": "C148", "title": "Descriptor references compare by content, and distance zero means equal", "statement": "Comparing two descriptor references with == is always defined and tells whether the same bytes are seen through them; it is an equivalence relation, and an assigned reference equals its source. GetNumBitsDifferent is a metric on descriptors of equal size, and zero exactly for equal ones.", "quantifier": "All references in all states reachable by allowed operations, all descriptors of all sizes.", "why_tests_cant": "All pairs and triples of byte strings of all sizes and all histories of ownership.", "anchors": ["aslam_cv_common/include/aslam/common/feature-descriptor-ref-inl.h:49-61", "aslam_cv_common/include/aslam/common/feature-descriptor-ref.h:144-153", "aslam_cv_common/include/aslam/common/hamming-inl.h:95-150"]}
{"id": "C149", "title": "A landmark that is tracked is triangulated where it is", "statement": "If all keypoints of a feature track are the projections of one landmark by the cameras of the track, triangulateFeatureTrack reports success and returns that landmark, unless all lines of sight are parallel, which it reports as unobservable.", "quantifier": "All tracks of two or more keypoints, cameras whose back-projection inverts their projection, mountings, poses and landmarks.", "why_tests_cant": "All numbers of views, poses and positions; tests use a few random scenes with one camera.", "anchors": ["aslam_cv_triangulation/src/triangulation.cc:264-311", "aslam_cv_triangulation/src/triangulation.cc:17-59", "aslam_cv_cameras/src/camera-pinhole.cc:47-63", "aslam_cv_cameras/src/camera-unified-projection.cc:54-72"]}
{"id": "C150", "title": "Keypoints with distinctive descriptors are matched with their counterparts", "statement": "If every keypoint with a prediction either has a counterpart that lies where it is predicted, with a descriptor distinctly closer than all others, or has no close descriptor at all, and no two share a counterpart, then GyroTwoFrameMatcher returns exactly the pairs of keypoints and counterparts, in the order of frame k.", "quantifier": "All frames, predictions, descriptors and counterparts as described.", "why_tests_cant": "All arrangements of keypoints, predictions and descriptor distances; the tests match a few images with random points.", "anchors": ["aslam_cv_matcher/src/gyro-two-frame-matcher.cc:112-289", "aslam_cv_matcher/include/aslam/matcher/gyro-two-frame-matcher.h:200-252"]}
{"id": "C151", "title": "Track ids are landmarks", "statement": "If the gyro matcher and the track manager are applied from frame to frame and the descriptors and predictions of all keypoints are distinctive as in C150, no call fails, a keypoint has a track id exactly if its landmark was followed from the frame before or to the frame after, and two keypoints of any two frames have the same track id exactly if they show the same landmark and it was followed through all frames in between.", "quantifier": "All sequences of frames, keypoints, landmarks, predictions and descriptors as described, with up to 2^31 keypoints altogether, outside the last row of the image, without optical flow.", "why_tests_cant": "All lengths of sequences, all comings and goings of landmarks; the tests match two frames.", "anchors": ["aslam_cv_tracker/src/feature-tracker-gyro.cc:77-151", "aslam_cv_matcher/src/gyro-two-frame-matcher.cc:112-289", "aslam_cv_tracker/src/track-manager.cc:24-80"]}
{"id": "C152", "title": "Keypoints are predicted where the points reappear", "statement": "When a pinhole camera without distortion turns, predictKeypointsByRotation predicts the keypoints of points exactly where the points are seen afterwards and reports failure exactly for points that are not seen any more. When the camera moves as well, the prediction is off by exactly the parallax, which is at most the focal length plus the distance of the keypoint from the center, times e / (D - e), for points at least D deep and movements by at most e.", "quantifier": "All points, turns, movements and intrinsics.", "why_tests_cant": "All points and motions over the reals; the tests predict a few keypoints.", "anchors": ["aslam_cv_matcher/src/match-helpers.cc:40-94", "aslam_cv_cameras/src/camera-pinhole.cc:47-164"]}
{"id": "C153", "title": "Pairwise distances of descriptors", "statement": "pairwiseEuclidianDistances returns, for any number of descriptors and whatever was in the result before, the Euclidean distance of every pair exactly once, in the order of pdist: p1p0, p2p0, ..., p2p1, ....", "quantifier": "All descriptor matrices and previous results.", "why_tests_cant": "The order and completeness hold for any number of descriptors; the function has no test.", "anchors": ["aslam_cv_common/include/aslam/common/descriptor-utils.h:196-212"]}
{"id": "C154", "title": "Pictures of the KAZE scale space", "statement": "Save_Scale_Space and Save_Detector_Responses write one picture per level, each to a file of its own: every pixel is within half a grey value of where its value lies between the least (black) and the largest (white) of the level. Other files stay, the two calls do not disturb each other, writing again writes the same, and writing does not change what is detected.", "quantifier": "All scale spaces, contents of files, and orders of the calls.", "why_tests_cant": "Whether pictures are right depends on all values of all levels; the functions have no test.", "anchors": ["aslam_cv_detector/src/kaze/KAZE.cpp:2293-2318", "aslam_cv_detector/src/kaze/utils.cpp:33-72"]}
{"id": "C155", "title": "Tracking with optical flow, frame after frame", "statement": "When the gyro tracker with optical flow and the track manager take turns over a sequence of frames, no check fails however long the sequence is. In the end track ids are distinct within every frame, the matches returned for every pair of successive frames are one-to-one, start with those of the descriptor matcher and have one further match for each keypoint added by optical flow, and matched keypoints have the same track id.", "quantifier": "All numbers of frames and keypoints, one-to-one descriptor matchers, optical flow results and extractors; up to 2^31 track ids.", "why_tests_cant": "The ids read by a call are those written after the call before, so the claim is about sequences of any length, which tests only sample.", "anchors": ["aslam_cv_tracker/src/feature-tracker-gyro.cc:76-152", "aslam_cv_tracker/src/tracking-helpers.cc:68-140", "aslam_cv_tracker/src/track-manager.cc:14-80"]}
