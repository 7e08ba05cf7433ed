{"id": "C01", "title": "windowed() without padding cuts the signal into exactly the right slices and loses nothing", "statement": "For windowsize w>=2, stepsize s>=1 and dopad=False, windowed(a,w,s) returns n windows, window i being exactly a[i*s : i*s+w]; the count n is 0 when len(a)<=w and 1+(len(a)-w)//s otherwise; and when s<=w the returned leftover is exactly the suffix of a that begins where the next (not yet emitted) window would begin, so windowing leftover++more continues the same window sequence. windowsize or stepsize below one raises ValueError.", "quantifier": "every array length and content, every window size and step size", "why_tests_cant": "the off-by-one behaviours (len==w, (len-w)%s==0) depend on the joint residue of three unbounded integers; tests sample a handful of triples", "anchors": ["zounds/nputil/npx.py: windowed, _wcut"]}
{"id": "C02", "title": "windowed() with padding returns slices of the zero-continued signal and uses every sample under an exact condition", "statement": "With dopad=True, window size >= 2 and step >= 1, windowed returns at least one window and no leftover, and window i is exactly the samples i*step to i*step+windowsize of the signal continued by zeros. Every sample of the signal is in one of the windows if and only if the signal fits into one window, or the windows do not overlap and touch (step = window), or step < window and len(a) % step <= window - step.", "quantifier": "every array, window size and step size", "why_tests_cant": "the claim fails only for particular residues (e.g. w=5,s=4,len=14 drops the last sample); sampling either misses these or cannot tell where the exact boundary lies", "anchors": ["zounds/nputil/npx.py: windowed, _wpad, pad"]}
{"id": "C03", "title": "Streaming a signal through SlidingWindow gives the same windows as windowing it whole", "statement": "However an incoming signal is divided into chunks, the windows the SlidingWindow node has emitted after any non-final chunks are exactly the slices of length w at positions 0, s, 2s, ... of the signal received (s <= w), and the samples it is holding are exactly those not yet passed by the window start, at most one window's worth; no sample is duplicated, lost or reordered, and two chunkings differ by at most one pending window. Over a complete run, window i is the slice at i*s of the signal (preceded by padwith zeros) continued by zeros, and the run never fails. Each window is weighted by the window function coefficient by coefficient.", "quantifier": "every signal, every chunking of it (including empty and single-sample chunks), every window/step with s<=w", "why_tests_cant": "there are exponentially many chunkings of a stream; the invariant ties the cache to an unbounded history", "anchors": ["zounds/spectral/sliding_window.py: SlidingWindow._enqueue/_dequeue/_process", "zounds/core/axis.py: ArrayWithUnits.sliding_window_with_leftovers"]}
{"id": "C04", "title": "Slicing a time series by time selects exactly the samples that overlap the requested interval", "statement": "For a time dimension with frequency f>0 and duration d>=f, indexing with a TimeSlice [s, e) (0<=s) returns the contiguous run of samples i whose own extent [i*f, i*f+d) overlaps the interval, up to the documented 1/100 sample rounding at the end; it never returns a sample that does not overlap, and a TimeSlice with no duration runs to the end.", "quantifier": "every frequency, duration, slice start and slice duration", "why_tests_cant": "the bounds come from division, floor, round and ceil of arbitrary picosecond quantities; boundaries where sample edges coincide with slice edges are a measure-zero set for tests", "anchors": ["zounds/timeseries/timeseries.py: TimeDimension.integer_based_slice"]}
{"id": "C05", "title": "Python slices of seconds mean the same as on a list, including negative ends", "statement": "ts[a:b] with time values a, b behaves as the TimeSlice between them where a negative value counts from the end of the array: whenever the resolved stop is not before the start of the array (so in particular whenever b >= -len), the result is exactly the run of samples overlapping the interval between the two resolved instants (with the 1/200 sample tolerance of time slicing).", "quantifier": "every array length, time axis, and pair of (possibly negative or missing) start and stop durations whose resolved stop is not negative", "why_tests_cant": "unbounded combination of signs and magnitudes; the wrong answer appears only when the resolved end is negative", "anchors": ["zounds/timeseries/timeseries.py: TimeDimension.integer_based_slice, TimeDimension.metaslice"]}
{"id": "C06", "title": "TimeSlice intersection, containment, order and equality agree with intervals", "statement": "For time slices with a duration: the duration of a & b is the length of the overlap of the two intervals, a & b == b & a, and it is positive iff the intervals overlap; a slice or an instant is 'in' another only if it lies strictly inside; a == b iff start and duration are equal as times whatever their units, and then hash(a) == hash(b); slices order by their start; a + t shifts both ends by t; TimeSlice.slices(timestamps) tiles the span of the sorted timestamps; a slice without a duration has no end (TypeError).", "quantifier": "all pairs of slices over all starts, durations and units", "why_tests_cant": "real-interval algebra over unbounded integers", "anchors": ["zounds/timeseries/timeseries.py: TimeSlice.__and__, __contains__, __eq__, __hash__, __add__, __lt__"]}
{"id": "C07", "title": "A sample rate survives conversion to picoseconds and back", "statement": "An AudioSampleRate built from an integer number n of samples per second is refused, with ValueError, if and only if n is not positive or above 10^12; for every n from 1 to a million it reports exactly n samples per second and has no overlap; just above a million it does not. audio_sample_rate maps each of the six supported rates to itself and refuses every other number with ValueError; nearest_audio_sample_rate gives a supported rate at least distance.", "quantifier": "every integer rate below one million and every integer for the lookup", "why_tests_cant": "an integer-division round trip over a large domain; tests check the six named rates only", "anchors": ["zounds/timeseries/samplerate.py: SampleRate.samples_per_second, AudioSampleRate, audio_sample_rate, nearest_audio_sample_rate"]}
{"id": "C08", "title": "Sample-count arithmetic of windowing schemes is consistent", "statement": "The windowing scheme built by SampleRate.windowing_scheme(window, hop) has frequency hop*f and duration window*f; discrete_samples of it recovers (hop, window) exactly; multiplication of sample rates composes; its overlap is duration-frequency.", "quantifier": "every base frequency and every window/hop pair", "why_tests_cant": "rounding of ratios of unbounded integers", "anchors": ["zounds/timeseries/samplerate.py: SampleRate.windowing_scheme, discrete_samples, overlap, __mul__, resample"]}
{"id": "C09", "title": "The time axis of windowed data covers exactly the samples in each window", "statement": "After a window of w samples every k samples, entry i of the derived time dimension spans exactly from the start of sample i*k to the end of sample i*k+w-1 of the original dimension, for overlapping or non-overlapping source samples, and windowing twice composes. A time dimension made without a duration, or with one of zero, has entries of one period.", "quantifier": "every source dimension, window, step, index and every composition depth", "why_tests_cant": "compositions of unbounded depth over unbounded integers", "anchors": ["zounds/timeseries/timeseries.py: TimeDimension.modified_dimension, end"]}
{"id": "C10", "title": "Growable behaves like an ordinary list under append and extend", "statement": "Starting from a Growable whose logical size does not exceed its array, after any sequence of append/extend nothing is raised, the logical data is the initial logical data followed by everything appended, in order, the logical size is its length and never exceeds the physical size, no previously written item changes; growth rates that are not positive are refused, and a full array grows by rate times its size, at least one item.", "quantifier": "every initial buffer, growth rate and finite sequence of operations", "why_tests_cant": "operation histories are unbounded and growth happens at sparse points", "anchors": ["zounds/nputil/npx.py: Growable.append, extend, _grow, _tmp_size, logical_data"]}
{"id": "C11", "title": "Several HammingDb instances on one store agree with the store", "statement": "For every interleaving of opens, appends and searches by any number of HammingDb instances that share one database directory, if no commit fails and codes are byte strings or ASCII text, the database holds exactly the accepted records, and every instance's in-memory index, after it checks for external modifications (which every search does), contains exactly the (id, code) entries of the accepted records, each once.", "quantifier": "every number of instances, every interleaving of opens, appends and searches in which every commit succeeds and ids are fresh", "why_tests_cant": "schedules are unbounded; stale-cache bugs appear in particular interleavings only", "anchors": ["zounds/index/hammingdb.py: HammingDb.append, _check_for_external_modifications, _initialize_in_memory_store, search"]}
{"id": "C12", "title": "HammingDb.search returns the n closest codes", "statement": "After every history, search(code, n) for n smaller than the number of records returns exactly n of the records, every record returned is at least as close in Hamming distance as every record not returned, with sort=True they are in order of non-decreasing distance, and neither the multithreaded flag nor the number of threads changes what a search returns or raises.", "quantifier": "every history, query, n below the number of records, and every legal result of numpy's argpartition and argsort", "why_tests_cant": "selection correctness over all inputs; partition algorithm may return any legal order", "anchors": ["zounds/index/hammingdb.py: HammingDb.search, _search_multithreaded", "zounds/nputil/npx.py: packed_hamming_distance"]}
{"id": "C13", "title": "The bit counter counts bits, and packed Hamming distance is a metric", "statement": "count_bits(x) equals the number of one bits of x for every 64-bit word; packed_hamming_distance(a,b) is the number of differing bits, hence symmetric, zero iff equal and satisfies the triangle inequality.", "quantifier": "all 2^64 words; all packed codes of any number of words", "why_tests_cant": "2^64 inputs; multi-word codes are unbounded", "anchors": ["zounds/nputil/countbits.pyx: count_bits", "zounds/nputil/npx.py: packed_hamming_distance, hamming_distance"]}
{"id": "C14", "title": "Binary codes round trip through the query encoding and their packed representation", "statement": "Encoding a boolean feature to a packed byte query (HammingIndex.encode_query) and decoding it (decode_query) gives back the same bits padded with zeros to a whole number of bytes; decoding then re-encoding any byte string gives the same query.", "quantifier": "all bit vectors and all byte strings", "why_tests_cant": "unbounded-length strings", "anchors": ["zounds/index/index.py: HammingIndex.decode_query, encode_query", "zounds/index/hammingdb.py: HammingDb._np_code"]}
{"id": "C15", "title": "HammingDb rejects codes and databases of the wrong size", "statement": "The code size of a database is fixed for ever by the first open that names a multiple of eight, and every instance has that size; opening an uninitialised one without a code size raises, opening an initialised one with a different (non-zero) code size raises, code sizes that are not multiples of 8 are refused; append and search refuse codes of another length and change nothing; a writeonly instance refuses to search, and text queries are a TypeError; if the appended codes are byte strings or ASCII text, all stored codes have the database's size.", "quantifier": "every history of opens and appends with any code sizes and code strings", "why_tests_cant": "combinations of histories and malformed inputs", "anchors": ["zounds/index/hammingdb.py: HammingDb.__init__, _validate_code_size, append, search"]}
{"id": "C16", "title": "A HammingIndex built from scratch holds every segment once, and a prefix of them at every crash point", "statement": "An index that has never been created consumes the whole event stream and then holds exactly the segments of the documents processed for its feature, each once and in order; add_all on a new index adds every segment of every document once; and at every crash point the rows present are a prefix of those.", "quantifier": "every document stream, feature and crash point of a first run", "why_tests_cant": "crash points inside a document are not reachable by unit tests", "anchors": ["zounds/index/index.py: HammingIndex.add, _synchronously_process_events, listen"]}
{"id": "C17", "title": "Time values survive persistence", "statement": "decode_timedelta(encode_timedelta(t)) == t, in value and unit, for every non-negative 64-bit count in any unit, in a fixed number of bytes; likewise for a TimeSlice with a duration.", "quantifier": "all non-negative 64-bit counts and all units", "why_tests_cant": "2^64 values; sign handling matters at the boundary", "anchors": ["zounds/persistence/util.py: encode_timedelta, decode_timedelta", "zounds/persistence/timeslice.py: TimeSliceEncoder, TimeSliceDecoder"]}
{"id": "C18", "title": "A persisted array decodes to the concatenation of the encoded chunks with the same dimensions", "statement": "However an array stream is chunked when it is encoded, decoding the produced bytes yields the concatenation of the chunks' rows, with the dtype, row shape and dimensions of the stream; the number of rows is found from the bytes alone; and metadata too large for its length prefix is refused.", "quantifier": "every sequence of chunks, dimension metadata, row size", "why_tests_cant": "unbounded chunkings; framing must be self-delimiting for every metadata string", "anchors": ["zounds/persistence/arraywithunits.py: ArrayWithUnitsEncoder, ArrayWithUnitsDecoder"]}
{"id": "C19", "title": "Dimension metadata round trips for every dimension type", "statement": "Decoding the JSON form of any identity, time, frequency or explicit frequency dimension built from the library's scale and slice types gives a dimension equal to the one encoded, a list of dimensions decodes to the list, every dimension equals itself, and unknown types are refused.", "quantifier": "all dimensions of the documented types over all scales, frequencies, durations, sizes and slices", "why_tests_cant": "sum type with unbounded parameters", "anchors": ["zounds/persistence/basedimension.py", "zounds/persistence/identitydimension.py", "zounds/persistence/frequencydimension.py", "zounds/persistence/timedimension.py", "zounds/persistence/dimension.py: DimensionEncoder, DimensionDecoder"]}
{"id": "C20", "title": "Frequency slicing selects exactly the bands that touch the requested range", "statement": "For a scale whose bands have non-decreasing starts and stops and that is not always_even, get_slice(band) selects precisely the bands with stop_hz >= band.start_hz and start_hz < band.stop_hz (a contiguous run); plain slices of Hertz values mean the band between them.", "quantifier": "every scale with sorted bands that is not always_even, every requested band", "why_tests_cant": "bisect boundaries over arbitrary ordered reals", "anchors": ["zounds/spectral/frequencyscale.py: FrequencyScale.get_slice"]}
{"id": "C21", "title": "A LinearScale tiles its band and slicing it keeps the same bands", "statement": "The bands of LinearScale(band, n) for n >= 2 are n contiguous equal-width bands, in order, from band.start_hz to band.stop_hz; slicing it by positions, or by frequency if it is not always_even, where at least two bands are selected gives a scale of exactly the selected bands; slices of explicit and geometric scales keep exactly the selected bands whatever their number; scale[i] is band i, from the back for negative i, and an IndexError beyond either end; a geometric or explicit scale can be built exactly if it has a band and its first starts before its last stops, and it spans from the one to the other; a ChromaScale has length twelve but indexing or slicing it raises NotImplementedError.", "quantifier": "every band, every number of bands from two, every slice selecting two bands or more", "why_tests_cant": "real arithmetic over unbounded n", "anchors": ["zounds/spectral/frequencyscale.py: LinearScale, FrequencyScale.__getitem__"]}
{"id": "C22", "title": "Frequency bands are well formed and their algebra is that of intervals", "statement": "FrequencyBand(start, stop) raises ValueError unless start < stop; the centre is the midpoint and the bandwidth the width; intersect gives the band of exactly the common frequencies, whichever way round, and raises ValueError exactly when there are none; from_center and from_start build the band with that centre or start and that bandwidth, exactly for positive bandwidths; the intersection ratio is the share of the first band that is common, above 0 and at most 1, and 1 exactly if the first band lies within the second; ensure_overlap_ratio accepts exactly the scales all of whose adjacent bands overlap by at least that share of the first of the two, and raises AssertionError otherwise.", "quantifier": "all real bounds", "why_tests_cant": "real interval algebra", "anchors": ["zounds/spectral/frequencyscale.py: FrequencyBand"]}
{"id": "C23", "title": "Equality of explicit scales and dimensions of equal length is equality of their contents", "statement": "Two explicit scales with equally many bands are equal iff they have the same bands in the same order; explicit frequency dimensions with equally many bands and slices given as lists are equal iff they have the same bands and slices; selecting by value a band that occurs once gives the slice stored for it; bands and slices of different numbers are refused; other scales are equal iff their parameters are.", "quantifier": "all lists of bands and slices of equal lengths", "why_tests_cant": "quantifies over lists of any length", "anchors": ["zounds/spectral/frequencyscale.py: ExplicitScale.__eq__", "zounds/spectral/tfrepresentation.py: ExplicitFrequencyDimension"]}
{"id": "C24", "title": "A frequency-adaptive representation keeps every coefficient of every band", "statement": "FrequencyAdaptive built from per-band arrays places the bands contiguously in order with no gap or overlap; slicing by a band returns exactly that band's coefficients; from_array_with_units recovers the same representation from the flattened array.", "quantifier": "any number of pairwise different bands of any sizes", "why_tests_cant": "unbounded partitions", "anchors": ["zounds/spectral/frequencyadaptive.py: FrequencyAdaptive"]}
{"id": "C25", "title": "Onset segmentation tiles the timeline and does not depend on chunking", "statement": "For any onset decision that returns increasing row numbers, the time slices emitted over a whole stream are exactly those between zero, the onsets and the end of the stream: at least one, consecutive, starting at zero, covering the stream; if decisions are made row by row (as the moving average picker does) they are the same for every chunking; the measure of transience equals its whole-stream definition for every chunking into non-empty chunks and does not depend on the recording level of non-silent rows; the spectral flux node refuses every chunk.", "quantifier": "every stream, every chunking, every set of onsets", "why_tests_cant": "exponentially many chunkings", "anchors": ["zounds/segment/onset.py: BasePeakPicker, MeasureOfTransience, Flux"]}
{"id": "C26", "title": "The reservoir sampler only ever holds items of the stream, and all of them until it is full", "statement": "After any chunks and any random draws the reservoir yields, if it does not fail (C298: arrays without units never fail), min(capacity, seen) rows, each of them a row of the stream, and while everything fits exactly the rows of the stream; fed one row at a time it does algorithm R, and every row of the stream is held at the end under the same share of the equally likely draw sequences; capacities that are not positive, and indices outside the reservoir, are refused.", "quantifier": "every chunking and every sequence of random draws", "why_tests_cant": "random draws and chunkings are adversarial", "anchors": ["zounds/learn/random_samples.py: ReservoirSampler"]}
{"id": "C27", "title": "Multiplexed reservoirs keep their keys aligned", "statement": "Through any sequence of sequential adds in which every key gets as many rows as there are samples, at non-negative indices, row i of every key is that key's part of one and the same input sample and all keys report the same occupied rows; get returns the occupied rows in order, get_batch the chosen ones; a reservoir never reports more than its capacity; batches larger than what is held are refused, and so are adds with other keys, which write nothing.", "quantifier": "all sequential histories of accepted operations, index choices, and key sets", "why_tests_cant": "needs an invariant over all histories, including failing operations", "anchors": ["zounds/learn/random_samples.py: Reservoir, MultiplexedReservoir"]}
{"id": "C28", "title": "Merge pairs the streams index by index whatever the arrival order", "statement": "For every schedule in which chunks with rows of positive width arrive at the inputs of Merge, the rows emitted so far are exactly row i of all sources side by side, for every row i that all sources have sent, each once and in order; this does not depend on the order of arrival or the chunk sizes, and some source has nothing waiting; fewer than two inputs and data from an unknown source are refused. A pooled feature has exactly one entry per time slice that arrived, holding the pooled series over that slice, in chronological order, whatever the order of arrival; the Max node emits the largest value of each row.", "quantifier": "every number of sources, every schedule of arrivals and chunk sizes with rows of positive width", "why_tests_cant": "schedules are unbounded", "anchors": ["zounds/basic/basic.py: Merge"]}
{"id": "C29", "title": "A learned pipeline's inverse undoes its forward transform", "statement": "If every step's inverse undoes that step then inverse_transform(transform(x)) == x for the pipeline, for pipelines of any length; each library step (mean/std normalisation of non-constant features, instance scaling and unit norm of non-silent examples, reshape, slicing of the kept part, weighting, multiply, mu-law, log) has the left-inverse property on its stated domain, and pipelines of any number of library steps have it where every step is on its domain; a pipeline with a step that cannot be inverted refuses.", "quantifier": "all pipelines of any length, all inputs on which every step is on its domain", "why_tests_cant": "composition of unbounded length over reals", "anchors": ["zounds/learn/preprocess.py: Pipeline, PipelineResult, MeanStdNormalization, InstanceScaling, UnitNorm, Reshape, Slicer, Weighted, MuLawCompressed, Log, Multiply"]}
{"id": "C30", "title": "Accepted HTTP ranges serve a contiguous part of the content with a matching Content-Range", "statement": "A single-line Range header is understood exactly when it is a unit without '=', '=', a non-empty start without '-', '-' and anything; with no range, or one that is not understood, the whole file is served with status 200; other units than bytes and seconds are refused; bytes=a- serves the file from position a to its end with status 206 and a Content-Range naming start, end and true total; whatever byte range is requested, the body is a contiguous piece of the file; seconds=a-b requests exactly the interval from a to b, rounded towards zero to picoseconds, and its Content-Range names start, end and total in seconds.", "quantifier": "all header strings and file sizes", "why_tests_cant": "strings and sizes are unbounded", "anchors": ["zounds/ui/contentrange.py: RangeUnitUnsupportedException, RangeRequest, ContentRange", "zounds/ui/serializer.py: DefaultSerializer", "zounds/ui/baseapp.py: BaseZoundsApp.feature_handler"]}
{"id": "C31", "title": "MIDI note names and numbers are mutually inverse", "statement": "Every integer note number n is named by pitch class n mod 12 and octave n div 12, and the number is computed back from the name, negative octaves included; no two numbers share a name; a text denotes a number exactly when it is one of the twelve sharp names followed by what Python's int reads as the octave, and it is returned by its number exactly when it is canonical.", "quantifier": "every integer and every text", "why_tests_cant": "unbounded integers", "anchors": ["zounds/util/midi.py"]}
{"id": "C32", "title": "MemoryBuffer is a faithful FIFO of bytes", "statement": "Whatever the sequence of writes and reads, including buffer compaction when the maximum size is exceeded, the concatenation of bytes read is a prefix of the concatenation of bytes written, each read returns as many bytes as are available up to the request (all of them for a negative count), readinto fills the given buffer likewise, write returns the number of bytes written, relative seeks and seeks from the end move by that many bytes, and the memory held is bounded; chunks of an AudioStream hold whole samples of the requested duration.", "quantifier": "all operation histories and buffer sizes", "why_tests_cant": "compaction interleaved with reads", "anchors": ["zounds/soundfile/audiostream.py: MemoryBuffer"]}
{"id": "C33", "title": "Reading a sound file by consecutive time slices never repeats a sample, and is complete at exact rates", "statement": "Reading a sound file by a slice with both ends on sample boundaries returns exactly the frames of that interval, and the full slice the whole file; consecutive slices never return a frame twice and skip at most one frame per seam, none exactly when the fractional sample positions do not carry over; sample-aligned consecutive slices are seamless; and iterating second by second over a file whose rate divides 10^12 terminates and returns every frame once, in order.", "quantifier": "every file length and content, every rate and slicing with the stated exactness", "why_tests_cant": "drift appears only after hundreds of chunks", "anchors": ["zounds/soundfile/ogg_vorbis.py: OggVorbisWrapper.__getitem__, iter_chunks"]}
{"id": "C34", "title": "AudioSamples construction, channel conversion, silence, padding and addition compute what the theorems state", "statement": "AudioSamples can be built from one or two axes with an audio sample rate only; files are accepted exactly at the six known rates; mono returns one channel as it is and is idempotent, and for several channels gives a quarter of their sum (their average times a quarter of their number); stereo duplicates a one-axis signal and leaves stereo alone; silence of a duration of n samples, n other than one, is n zero samples in each channel, and padding a one-axis signal appends exactly those; adding signals of different sample rates or lengths is refused, equal rates and lengths add sample by sample; OGG encoding writes consecutive pieces that join to the whole.", "quantifier": "every signal and duration", "why_tests_cant": "values and lengths are unbounded", "anchors": ["zounds/timeseries/audiosamples.py: AudioSamples"]}
{"id": "C35", "title": "Overlap-add reconstructs the signal", "statement": "Output sample t of overlap-add is the sum over frames i of frame_i[t-i*hop]; for non-overlapping frames it is the concatenation; when the frames are windows of a signal weighted by a window whose hop-shifts sum to one, the original signal is recovered in the interior.", "quantifier": "every number of frames, window and hop", "why_tests_cant": "unbounded sums", "anchors": ["zounds/synthesize/synthesize.py: WindowedAudioSynthesizer._overlap_add"]}
{"id": "C36", "title": "Every axis of an ArrayWithUnits keeps its own dimension", "statement": "Under indexing by Python integers, slices, at most one list of positions (without integers beside it), None, one ellipsis and semantic slices (no None between the start and a semantic slice, nor between a semantic slice after the ellipsis and the end), transposition, sum and max (not along all axes, which without keepdims is an AttributeError), squeezing, adding unit axes, concatenation and windowing of a leading time axis: the number of dimensions equals the number of axes, each surviving axis carries the dimension it had before the operation (metasliced when sliced), semantic slices are translated by the axis they are applied to, and every value comes from the selected position. Index forms outside this list (numpy integers, integer arrays, None before a semantic slice, an integer beside a list, two lists), dot, and windows over a later time axis do not have the property.", "quantifier": "arrays of any rank and any index expression of these forms", "why_tests_cant": "rank and index expressions are unbounded", "anchors": ["zounds/core/axis.py: ArrayWithUnits._compute_indices, _new_dims, sum, T, concat, reshape", "zounds/core/dimensions.py"]}
{"id": "C37", "title": "n-dimensional sliding windows address the right elements", "statement": "sliding_window(a, ws, ss) has (shape-ws)//ss+1 windows per axis and element j of window i is a[i*ss+j] componentwise, always inside the array; mismatched ranks and oversized windows raise ValueError; flattening keeps all windows in row-major order.", "quantifier": "arrays of any rank, window and step", "why_tests_cant": "stride arithmetic over unbounded rank; an out-of-bounds stride reads foreign memory", "anchors": ["zounds/nputil/npx.py: sliding_window"]}
{"id": "C38", "title": "Applying a network in chunks equals applying it at once", "statement": "For a row-wise network, apply_network(net, x, chunksize) returns the same rows in the same order for every positive chunk size and for None, for every non-empty input; for any network it is the concatenation of the network's results on consecutive pieces; chunk sizes below one are refused.", "quantifier": "every non-empty input, every positive chunk size", "why_tests_cant": "all chunk sizes and lengths", "anchors": ["zounds/learn/util.py: apply_network"]}
{"id": "C39", "title": "Trainers run the characterised number of epochs and call every callback once per batch", "statement": "A call of train runs the next epochs, at most checkpoint_epochs of them and never beyond the total, and calls every registered batch-complete callback exactly once for every batch of each; over a stream of data sets the epochs run are 0, 1, 2, ... up to that total, which is `epochs` for supervised and adversarial trainers; registering is idempotent, a function that has been unregistered is never called again; batches start at the multiples of the batch size; held-out and training examples are disjoint and make up the data.", "quantifier": "every epoch count and batch count", "why_tests_cant": "loop bounds over unbounded integers", "anchors": ["zounds/learn/trainer.py: Trainer", "zounds/learn/supervised.py"]}
{"id": "C40", "title": "Similarity hashing depends only on direction", "statement": "simhash of a vector is a vector of 0/1 signs, invariant under positive scaling, complemented (where non-zero) under negation; equal projections give equal codes.", "quantifier": "all vectors, planes and positive scalars", "why_tests_cant": "real-valued quantification", "anchors": ["zounds/learn/preprocess.py: SimHash", "zounds/learn/functional.py: hyperplanes, simhash"]}
{"id": "C41", "title": "Ingesting a dataset processes every sound exactly once", "statement": "ingest(dataset, cls) with multi-processing or multi-threading processes every sound of the data set that has a request and is not already in the database exactly once when urls are distinct, in every interleaving of the pool's workers; it terminates, at most `cores` sounds are in flight, and afterwards the database holds exactly the old and the new ones; a composite data set is the concatenation of its parts.", "quantifier": "every data set with distinct urls, every pool size, every interleaving of workers and every set of already-processed ids", "why_tests_cant": "data sets are unbounded; the failure is one of laziness", "anchors": ["zounds/datasets/ingest.py: ingest"]}
{"id": "C42", "title": "FreeSoundSearch yields the results page by page, starting over when they are exhausted", "statement": "When the search has R > 0 results in all, on any pages, and the recursion limit leaves room for enough pages, iterating FreeSoundSearch yields exactly n_results + 1 sounds, the i-th of them result number i mod R; an iteration that reaches the recursion limit first yields what it found and raises; a negative number yields none.", "quantifier": "every number of results, page size and n_results", "why_tests_cant": "pagination boundary conditions", "anchors": ["zounds/datasets/freesound.py: FreeSoundSearch.__iter__"]}
{"id": "C43", "title": "A locally cached dataset file is a beginning of some answer, complete when the download was not interrupted", "statement": "An uninterrupted download of a proper answer stores exactly its content under the last part of the url's path; once a file exists it is never downloaded again or changed; and after any history of calls, failures and crashes a stored file is a beginning of some answer of the server to its url or one of the same name.", "quantifier": "all crash points during download", "why_tests_cant": "crash points", "anchors": ["zounds/datasets/util.py: ensure_local_file", "zounds/datasets/cache.py: DataSetCache"]}
{"id": "C44", "title": "Brute-force search returns the nearest documents with the right ids and times", "statement": "BruteForceSearch keeps the i-th row of the index aligned with the (id, time slice) it came from and returns the n nearest; iterating a constant rate series' slices yields consecutive time slices paired with the rows in order.", "quantifier": "all databases, queries and n", "why_tests_cant": "unbounded contents", "anchors": ["zounds/index/brute_force.py: BruteForceSearch", "zounds/timeseries/constantrate.py: ConstantRateTimeSeries.iter_slices"]}
{"id": "C45", "title": "Variable-rate series return exactly the examples that overlap the requested slice", "statement": "A VariableRateTimeSeries keeps its examples sorted by time (stably); indexing by a TimeSlice returns exactly the examples that overlap it in time order; an open slice returns those from its start on; concatenation merges the examples; encoding and decoding gives them back; an empty series has an empty span.", "quantifier": "all sets of examples, all slices", "why_tests_cant": "unbounded sets", "anchors": ["zounds/timeseries/variablerate.py: VariableRateTimeSeries"]}
{"id": "C46", "title": "Loudness transforms are inverse pairs with the stated range", "statement": "mu_law and inverse_mu_law (for every positive mu), and log_modulus and inverse_log_modulus, undo each other for every real number, and all four are strictly increasing and odd; mu_law keeps 1 and maps [-1,1], and nothing else, into [-1,1]; decibel is increasing on positive numbers and turns products into sums; instance_scale divides a non-empty vector by its peak plus epsilon, so that everything stays strictly between -1 and 1 and multiplying by that number gives the vector back; unit_scale maps a non-constant vector into [0,1], in order, reaching both ends; inverse_one_hot of a vector whose maximum is at category k of n is 2k/n - 1.", "quantifier": "all reals, all non-constant vectors for unit scaling", "why_tests_cant": "continuous domain", "anchors": ["zounds/loudness/loudness.py: mu_law, inverse_mu_law, log_modulus, inverse_log_modulus, instance_scale, unit_scale"]}
{"id": "C47", "title": "With a secret set, every route except login needs the cookie", "statement": "In an app with a non-empty secret whose custom routes neither contain 'login' nor are used with PATCH, over every sequence of requests, every route other than login answers requests that lack the valid cookie without invoking the underlying handler; with the cookie, or with no secret, handlers run unmodified; login grants the cookie exactly on the right secret; the library's own routes satisfy the condition and a client who knows the secret can log in.", "quantifier": "all route tables, request sequences and non-empty secrets", "why_tests_cant": "routes and requests are unbounded; a missing wrap is silent", "anchors": ["zounds/ui/baseapp.py: BaseZoundsApp._secure_route, _make_app, login_handler, base_routes"]}
{"id": "C48", "title": "Perceptual and geometric scales are what their parameters say", "statement": "Bark.to_hz/to_bark, Mel.to_hz/to_mel and the semitone conversions are mutually inverse and strictly increasing; BarkScale and MelScale have n bands of the stated bandwidth whose centre frequencies increase from the lower to the upper end of the given band; GeometricScale has constant Q, the requested first and last centres and a constant ratio between neighbours.", "quantifier": "all real frequencies, all bands and band counts", "why_tests_cant": "continuous domain; the conversions involve exp, log and square roots", "anchors": ["zounds/spectral/frequencyscale.py: Bark, Mel, BarkScale, MelScale, GeometricScale, ChromaScale._semitones_to_hz, _hz_to_semitones"]}
{"id": "C49", "title": "The categorical representation of audio is one-hot", "statement": "With the default 256 categories, categorical turns every sample into a vector with exactly one 1 among zeros, never failing on a non-empty signal that is not normalised; normalising first means dividing by the largest sample when that is not zero; an empty signal is refused; a sample without a category is an IndexError.", "quantifier": "every signal", "why_tests_cant": "continuous domain; the inverse uses a different offset and scale than the forward direction, visible only when values are compared", "anchors": ["zounds/timeseries/functional.py: categorical, inverse_categorical"]}
{"id": "C50", "title": "Windowing functions weight every sample of a window by its own coefficient, and half-lapped ogg-vorbis windows have constant power", "statement": "Multiplying floating point windows by a WindowingFunc multiplies sample i along the last axis of every window by coefficient i and changes nothing else; the identity function changes nothing; Hann coefficients lie in [0,1], ogg-vorbis coefficients in (0,1] with largest exactly one, symmetric, and half a window apart their squares sum to one constant, within a stated bound of one; so analysis and synthesis with half-lapped ogg-vorbis windows gives the signal times that constant away from the first and last half window.", "quantifier": "every window function, window size and array of floating point samples whose last axis is the window", "why_tests_cant": "numeric domain; the coefficient type and the broadcast axis depend on the data", "anchors": ["zounds/spectral/sliding_window.py: WindowingFunc, IdentityWindowingFunc, HanningWindowingFunc, OggVorbisWindowingFunc"]}
{"id": "C51", "title": "A feature url leads back to its document and feature", "statement": "In an app with the default base path, the url built for a document id and feature is handled by the feature handler, which receives exactly that id and feature, for every id other than those the temp route takes (slashes, percent signs and non-ascii characters included); different ids have different urls; quoting is undone by unquoting.", "quantifier": "every id and feature name, the default base path", "why_tests_cant": "unbounded strings through quoting, regular expressions and unquoting", "anchors": ["zounds/ui/baseapp.py: BaseZoundsApp.feature_path, base_routes, feature_handler", "zounds/ui/api.py: ZoundsApp.custom_routes", "zounds/ui/training_monitor.py: TrainingMonitorApp"]}
{"id": "C52", "title": "The training monitor keeps the most recent points", "statement": "After any training run the history kept for each graphed key consists of the most recent values reported on sampled batches, in order, and at most n_training_points + 1 of them for a positive n_training_points; if every sampled batch reports the key it is all of them as long as there are no more than that.", "quantifier": "every run, batch frequency and number of points", "why_tests_cant": "history-dependent truncation over unbounded runs", "anchors": ["zounds/ui/training_monitor.py: TrainingMonitorApp._collect_training_history"]}
{"id": "C53", "title": "MDCT analysis followed by MDCT synthesis gives the audio back", "statement": "mdct computes the modified discrete cosine transform; audio cut into half-lapped ogg-vorbis-weighted windows of an even number of samples, transformed by MDCT and passed to MDCTSynthesizer comes back, the time domain aliases of neighbouring windows cancelling, up to one constant gain that depends on the window size only, everywhere but in the first and last half window; odd and empty windows are refused.", "quantifier": "every signal, window size, number of windows and sample rate", "why_tests_cant": "alias cancellation is an identity over all signals and window sizes; tests compare one signal approximately", "anchors": ["zounds/spectral/functional.py: mdct, imdct", "zounds/spectral/spectral.py: MDCT", "zounds/synthesize/synthesize.py: MDCTSynthesizer"]}
{"id": "C54", "title": "FFT and DCT windows are inverted exactly by their synthesizers", "statement": "The inverse FFT of the FFT of a window of even size, and the inverse DCT of the DCT of any window (and the other way round), is the window; half-lapped ogg-vorbis-weighted audio in windows of even size passed through FFT and FFTSynthesizer, or suitably weighted audio through DCT and DCTSynthesizer, comes back up to a constant gain away from the ends.", "quantifier": "every window, every even window size (FFT) or any size (DCT), no padding", "why_tests_cant": "identities over all signals; sizes are unbounded", "anchors": ["zounds/spectral/functional.py: fft", "zounds/spectral/spectral.py: FFT, DCT", "zounds/synthesize/synthesize.py: FFTSynthesizer, DCTSynthesizer"]}
{"id": "C55", "title": "DCTIV computes a fixed real transform of each window", "statement": "The DCT-IV node computes, for every window of every size, the transform given in closed form by the theorem (a DCT-IV-like sum of the input weighted by cos(pi t/2l)); windows of one sample are unchanged.", "quantifier": "every window of every size", "why_tests_cant": "a transform identity over all inputs; the project's own reconstruction test is skipped", "anchors": ["zounds/spectral/spectral.py: DCTIV", "zounds/synthesize/synthesize.py: DCTIVSynthesizer"]}
{"id": "C56", "title": "The torch cosine transforms compute the stated values and lengths", "statement": "DctTransform.idct(dct(x)) is x with its first sample doubled, and so is resampling to the same size; resampling gives as many samples as asked for; frequency_decomposition returns one band per stop, of that many samples, the inverse transform of the coefficients between the previous stop and its own; short_time_dct returns the coefficients of the weighted windows one after the other in row-major order; the window used for a size is the one first asked for.", "quantifier": "every signal, size, step, window function and sequence of calls", "why_tests_cant": "identities over all signals; the cache makes results depend on the history of calls", "anchors": ["zounds/learn/dct_transform.py: DctTransform"]}
{"id": "C57", "title": "phase_shift delays a signal by a fixed multiple of the given time", "statement": "On the FFT coefficients of a periodic window of N samples, phase_shift by s samples has the effect of delaying the window by s*N/(N/2+1) samples, whenever that is a whole number.", "quantifier": "every window and shift", "why_tests_cant": "an identity over all signals and shifts; the tests only check shapes and that something changed", "anchors": ["zounds/spectral/functional.py: phase_shift"]}
{"id": "C58", "title": "Time stretching and pitch shifting give the stated lengths, and a unit stretch is a known gain", "statement": "time_stretch by a positive factor gives back the audio's length divided by that factor, as computed; by a factor of one it multiplies every sample by the sum of the squared window weights above it; by any factor it adds up one window per multiple of the factor, with interpolated magnitudes and phases advancing as in the audio; pitch_shift gives the stated number of samples, each run of them resampled from 1024 samples of the stretched audio.", "quantifier": "every signal, factor, number of semitones, hop, window length and windowing function", "why_tests_cant": "identities over all signals; the number of frames and of resampled windows varies without bound with the length", "anchors": ["zounds/spectral/functional.py: time_stretch, pitch_shift"]}
{"id": "C59", "title": "frequency_decomposition splits windows into bands that add up to them", "statement": "frequency_decomposition gives, in increasing order, one band for every requested size with that many samples per window, the band's frequency range being its share of the spectrum, each band being the resampled remainder once the bands below it have been taken away; FrequencyDecompositionSynthesizer adds up the chosen bands (all when none are named), and gives back precisely the windows if their own size is among the sizes (C113 says when else); bands do not repeat what lower ones hold; no sizes, an empty size and repeated sizes are refused.", "quantifier": "every set of windows, every list of sizes, every choice of bands, every resampling function", "why_tests_cant": "a telescoping identity over any number of bands; tests use one list of sizes", "anchors": ["zounds/spectral/functional.py: frequency_decomposition", "zounds/synthesize/synthesize.py: FrequencyDecompositionSynthesizer"]}
{"id": "C60", "title": "Frequency-adaptive analysis is undone by the matching synthesizer wherever the band weights sum to one", "statement": "FrequencyAdaptiveTransform followed by the synthesizer for the same scale multiplies every frequency domain coefficient by the sum of the window weights of the bands it lies in, a band of the FFT variant keeping only the real part at its two ends; so when the weights sum to one (and, for the FFT, vanish at the ends of the bands) the synthesizer gives exactly the audio of the original coefficients. Bands too narrow to be transformed are refused, and asked to check the node refuses exactly the scales whose neighbours overlap by less than half.", "quantifier": "every array of coefficients, scale, window function and number of windows", "why_tests_cant": "an identity over all coefficients and scales; overlapping bands interact", "anchors": ["zounds/spectral/spectral.py: FrequencyAdaptiveTransform", "zounds/synthesize/synthesize.py: BaseFrequencyAdaptiveSynthesizer, FrequencyAdaptiveDCTSynthesizer, FrequencyAdaptiveFFTSynthesizer"]}
{"id": "C61", "title": "Sine, tick, noise and silence synthesizers produce the sound they describe", "statement": "With quotients of durations taken exactly (C322 and C323 say what double precision adds): SineSynthesizer gives the least number of samples that covers the duration, sample i being the mean over the frequencies f of sin(2 pi f i / sr), so samples stay within [-1, 1], longer sounds extend shorter ones, the order of the frequencies does not matter, and frequencies a multiple of the sample rate apart sound alike; no frequencies and a frequency of zero are refused. TickSynthesizer gives the sum of linearly fading tenth-of-a-second ticks that start every floor(tick_frequency * sr) samples; a tenth of a second or more apart they do not overlap, repeat exactly and stay within [-1, 1]; a tick frequency below one sample is refused. NoiseSynthesizer gives one draw for every whole sample in the duration, SilenceSynthesizer zeros. For whole seconds sines, ticks and noise have the same number of samples.", "quantifier": "every sample rate, duration, list of frequencies, tick frequency and sequence of random draws", "why_tests_cant": "sums over any number of frequencies and ticks; lengths from divisions of unbounded integers", "anchors": ["zounds/synthesize/synthesize.py: SineSynthesizer, TickSynthesizer, NoiseSynthesizer, SilenceSynthesizer"]}
{"id": "C62", "title": "Spectral centroid, flatness and cepstral coefficients compute the stated descriptions of the spectrum", "statement": "SpectralFlatness is the ratio of the geometric to the arithmetic mean of the magnitudes: between zero and one, one exactly for frames of equal magnitudes, zero exactly when a bin is empty (or the frame silent), the same at any volume and for any order of the bins. SpectralCentroid is the sum of bin number times magnitude over the sum of the bin numbers, and rises when energy moves to a higher bin. BFCC gives coefficients exclude to exclude+n_coeffs of the cosine transform of the log magnitudes (floored at 1e-12), all zero for a flat spectrum when the zeroth is excluded, and turning the volume up by c is the same as dividing the floor by c.", "quantifier": "every frame, volume, n_coeffs and exclude", "why_tests_cant": "inequalities between means over all frames; the tests check shapes only", "anchors": ["zounds/spectral/spectral.py: SpectralCentroid, SpectralFlatness, BFCC", "zounds/nputil/npx.py: safe_log"]}
{"id": "C63", "title": "Frequency weightings multiply every band by its weight and can be undone", "statement": "Multiplying an array by a FrequencyWeighting, on either side, multiplies each entry by the weight of its frequency band whatever the position of the frequency axis, dividing by it undoes that, and an array without a frequency dimension is refused; the same holds for whole frequency adaptive arrays. A-weights are at least one, one for the faintest band, and differ between bands by the A-weighting in decibels (within a hundredth of zero at 1 kHz, below two everywhere).", "quantifier": "every array, number and order of axes, scale with non-zero centre frequencies, every whole frequency adaptive array", "why_tests_cant": "quantifies over all scales and array shapes; tests only compare sums of the first and last band", "anchors": ["zounds/spectral/weighting.py: FrequencyWeighting, AWeighting", "zounds/spectral/tfrepresentation.py: FrequencyDimension.weights, ExplicitFrequencyDimension.weights"]}
{"id": "C64", "title": "Applying a scale to a spectrum adds up the coefficients in each of its bands", "statement": "FrequencyScale.apply (and BarkBands) turns each row of a spectrum on an ordered scale without always_even into one coefficient per band: the window-weighted sum of exactly the spectrum's coefficients whose bands touch that band, so it is linear, local, and not negative for magnitudes and non-negative windows; ChromaScale adds up, for each of the twelve tones, the bands the theorem states.", "quantifier": "every scale, spectrum on an ordered scale without always_even, window, number of rows", "why_tests_cant": "sums over unbounded sets of bins selected by bisection", "anchors": ["zounds/spectral/frequencyscale.py: FrequencyScale._basis, apply, ChromaScale._basis", "zounds/spectral/spectral.py: BaseScaleApplication, BarkBands, Chroma"]}
{"id": "C65", "title": "windowed() with padding uses every sample exactly if the signal fits one window, the windows touch, or the remainder fits the overlap", "statement": "With dopad=True every sample of a occurs in some returned window if and only if a fits in one window, or step and window are equal, or the step is smaller and len(a) modulo the step is at most the overlap; in all other cases, against the docstring, samples at the end are dropped.", "quantifier": "every array, window size and step size", "why_tests_cant": "the claim fails only for particular residues (e.g. w=5,s=4,len=14 drops the last sample); sampling either misses these or cannot tell where the exact boundary lies", "anchors": ["zounds/nputil/npx.py: windowed, _wpad, pad"]}
{"id": "C66", "title": "The windows inside a signal do not depend on how it was chunked exactly if the step is at most the window", "statement": "The complete windows the SlidingWindow node cuts out of a signal are the same for every chunking of it if and only if the step is at most the window. The zero padded windows at the end are continuations of these, but their number depends on the chunking.", "quantifier": "every signal, every chunking of it (including empty and single-sample chunks), every window/step with s<=w", "why_tests_cant": "there are exponentially many chunkings of a stream; the invariant ties the cache to an unbounded history", "anchors": ["zounds/spectral/sliding_window.py: SlidingWindow._enqueue/_dequeue/_process", "zounds/core/axis.py: ArrayWithUnits.sliding_window_with_leftovers"]}
{"id": "C67", "title": "A time slice whose stop lies before the array is empty exactly if it does so by less than 199/200 of a sample period", "statement": "If the stop of ts[a:b] is resolved to an instant before the start of the array, nothing is returned if that is by less than 199/200 of a period; otherwise the stop is counted from the end of the array once more, and the samples between the start and that later stop are returned.", "quantifier": "every input, without the restrictions of C05", "why_tests_cant": "unbounded combination of signs and magnitudes; the wrong answer appears only when the resolved end is negative", "anchors": ["zounds/timeseries/timeseries.py: TimeDimension.integer_based_slice, TimeDimension.metaslice"]}
{"id": "C68", "title": "The intersection of two time slices starts at zero", "statement": "a & b of two slices with durations always starts at zero (with the right duration), so it starts at the later of the two starts if and only if that is zero.", "quantifier": "all pairs of slices over all starts, durations and units", "why_tests_cant": "real-interval algebra over unbounded integers", "anchors": ["zounds/timeseries/timeseries.py: TimeSlice.__and__, __contains__, __eq__, __hash__, __add__, __lt__"]}
{"id": "C69", "title": "A Growable with any initial logical position can be extended, and appended to exactly if one growth makes room", "statement": "Whatever the initial logical position, also beyond the array, extend succeeds; append succeeds if and only if the position is less than the array's length plus one growth, and raises IndexError otherwise. Both add their items after the cells up to the logical size.", "quantifier": "every initial buffer, growth rate and finite sequence of operations", "why_tests_cant": "operation histories are unbounded and growth happens at sparse points", "anchors": ["zounds/nputil/npx.py: Growable.append, extend, _grow, _tmp_size, logical_data"]}
{"id": "C70", "title": "A HammingDb instance agrees with the store exactly if none of its own commits failed", "statement": "Commits may fail at any time in any instance, as long as ids are not drawn twice and codes are bytes or ASCII. The store holds exactly the records whose append returned. After its next search, the memory of an instance that is not writeonly holds exactly the ids and codes of those records if and only if no append of this instance ended with a failed commit; the failures of other instances do not matter.", "quantifier": "every input, without the restrictions of C11", "why_tests_cant": "schedules are unbounded; stale-cache bugs appear in particular interleavings only", "anchors": ["zounds/index/hammingdb.py: HammingDb.append, _check_for_external_modifications, _initialize_in_memory_store, search"]}
{"id": "C71", "title": "HammingDb.search succeeds exactly if fewer results are asked for than there are records", "statement": "After any history of opens, appends and searches in which commits succeed, ids are not drawn twice and codes are bytes or ASCII, search(code, n) by an instance that is not writeonly, with a code of the right size, succeeds if and only if n is less than the number of records; otherwise it is a ValueError.", "quantifier": "every input, without the restrictions of C12", "why_tests_cant": "selection correctness over all inputs; partition algorithm may return any legal order", "anchors": ["zounds/index/hammingdb.py: HammingDb.search, _search_multithreaded", "zounds/nputil/npx.py: packed_hamming_distance"]}
{"id": "C72", "title": "The code size check counts characters, and is enforced in bytes by instances with a memory", "statement": "append accepts a code if and only if it has as many characters as the code size and, unless the instance is writeonly, as many bytes when encoded; what is accepted is stored, what is refused changes nothing in the store. Opening with a code size other than the stored one is refused except for zero, which is ignored.", "quantifier": "every history of opens and appends with any code sizes and code strings", "why_tests_cant": "combinations of histories and malformed inputs", "anchors": ["zounds/index/hammingdb.py: HammingDb.__init__, _validate_code_size, append, search"]}
{"id": "C73", "title": "A HammingIndex indexes everything in its first run and can never be restarted", "statement": "The first run of an index that has never been created indexes every segment of every document processed by the feature, once. Restarting an index that has stored anything is a TypeError for every event stream, because the key of the stored position is text. Were text keys accepted, a crash after any number of transactions followed by a complete run would index every document completely and exactly once, except the one being indexed at the crash, of which a non-empty initial part remains or the first segment is present twice.", "quantifier": "every input, without the restrictions of C16", "why_tests_cant": "crash points inside a document are not reachable by unit tests", "anchors": ["zounds/index/index.py: HammingIndex.add, _synchronously_process_events, listen"]}
{"id": "C74", "title": "Times survive persistence exactly if they are not negative, and time slices if they also have a duration", "statement": "A time value of 64 bits comes back from encoding and decoding if and only if it is not negative (NaT counts as negative). A time slice can be encoded and decoded if and only if it has a duration and neither start nor duration is negative; it then has the same start and duration.", "quantifier": "every input, without the restrictions of C17", "why_tests_cant": "2^64 values; sign handling matters at the boundary", "anchors": ["zounds/persistence/util.py: encode_timedelta, decode_timedelta", "zounds/persistence/timeslice.py: TimeSliceEncoder, TimeSliceDecoder"]}
{"id": "C75", "title": "Packed features cannot be declared, and their decoder gives back the packed bytes", "statement": "Constructing a packed feature is a TypeError, for the class and for every subclass that is not also an ArrayWithUnitsFeature. Decoding what the packed encoder writes gives the dimensions of the unpacked rows and, for each row, the packed bytes, however rows are distributed over chunks.", "quantifier": "every sequence of chunks, dimension metadata, row size", "why_tests_cant": "unbounded chunkings; framing must be self-delimiting for every metadata string", "anchors": ["zounds/persistence/arraywithunits.py: ArrayWithUnitsEncoder, ArrayWithUnitsDecoder"]}
{"id": "C76", "title": "A dimension survives persistence exactly if it and its scale are of the library's classes, its times are not negative and its slices are a list", "statement": "A dimension that can be built comes back from encoding and decoding unchanged if and only if its times are not negative, its scale is of one of the library's own classes, its slices are in a list, and it is itself of one of the library's classes. Scales of subclasses are encoded but cannot be decoded, or, if geometric or explicit, come back as plain ones.", "quantifier": "every input, without the restrictions of C19", "why_tests_cant": "sum type with unbounded parameters", "anchors": ["zounds/persistence/basedimension.py", "zounds/persistence/identitydimension.py", "zounds/persistence/frequencydimension.py", "zounds/persistence/timedimension.py", "zounds/persistence/dimension.py: DimensionEncoder, DimensionDecoder"]}
{"id": "C77", "title": "always_even selects an even number of rows exactly if the touching rows are even in number or the last band is not among them", "statement": "With an always_even scale, the number of rows selected by a range is even if and only if the number of bands touching the range is even or the last band does not touch it; at most one row is added. Explicit, Bark and mel scales are never rounded. A slice between Bark or Mel bounds cannot be used to index anything, and mixed with a Hertz bound they count with the number they were built from.", "quantifier": "every input, without the restrictions of C20", "why_tests_cant": "bisect boundaries over arbitrary ordered reals", "anchors": ["zounds/spectral/frequencyscale.py: FrequencyScale.get_slice"]}
{"id": "C78", "title": "A slice of a linear scale keeps its bands exactly if it has at least two", "statement": "scale[i:j] of a linear scale of at least two bands has exactly the selected bands if and only if there are at least two of them; one band gives a scale of length one whose bands are an IndexError, none is an IndexError; the result is never always_even. A linear scale of fewer than two bands has no computable bands.", "quantifier": "every input, without the restrictions of C21", "why_tests_cant": "real arithmetic over unbounded n", "anchors": ["zounds/spectral/frequencyscale.py: LinearScale, FrequencyScale.__getitem__"]}
{"id": "C79", "title": "Explicit scales are equal exactly if the bands of one begin those of the other; explicit dimensions exactly if all agrees", "statement": "An explicit scale equals another scale if and only if the bands of one of them are the first bands of the other. Explicit dimensions are equal if and only if bands, slices and the kind of sequence of the slices agree. Selecting a band that occurs several times gives the slice of its last occurrence.", "quantifier": "every input, without the restrictions of C23", "why_tests_cant": "quantifies over lists of any length", "anchors": ["zounds/spectral/frequencyscale.py: ExplicitScale.__eq__", "zounds/spectral/tfrepresentation.py: ExplicitFrequencyDimension"]}
{"id": "C80", "title": "Onset slices are non-empty exactly if the first row is not an onset; a peak needs a neighbour above the threshold", "statement": "Every emitted slice has a positive length if and only if there are rows and the first one is not an onset. The moving average picker reports a row if and only if the column before the one it looks at is a peak and the column it looks at exceeds one and a quarter times the mean; a peak among zeros is never reported. Spectral flux gets through a stream if and only if nothing arrives.", "quantifier": "every stream, every chunking, every set of onsets", "why_tests_cant": "exponentially many chunkings", "anchors": ["zounds/segment/onset.py: BasePeakPicker, MeasureOfTransience, Flux"]}
{"id": "C81", "title": "The last row of a chunk is sampled with its fair share exactly if it is the only row of the chunk", "statement": "When a full sampler of n rows, after index rows, receives a chunk of c rows, exactly n^c of the (index+1)^c equally likely draws keep the last row of the chunk; this is the fair share n/(index+c) if and only if c is one. Rows that arrive one at a time are all held with the same probability.", "quantifier": "every input, without the restrictions of C26", "why_tests_cant": "random draws and chunkings are adversarial", "anchors": ["zounds/learn/random_samples.py: ReservoirSampler"]}
{"id": "C82", "title": "Multiplexed reservoirs stay aligned through accepted adds; a refused add has written the keys before the offending one; adds commute exactly if they agree on common rows", "statement": "Through any accepted adds all keys hold parts of the same samples. An add refused because one key has another number of rows has already written the keys before it and none after it. Two adds leave the same rows in either order, so that interleaving them between keys cannot be seen, if and only if they write the same sample into every row both write.", "quantifier": "every input, without the restrictions of C27", "why_tests_cant": "needs an invariant over all histories, including failing operations", "anchors": ["zounds/learn/random_samples.py: Reservoir, MultiplexedReservoir"]}
{"id": "C83", "title": "Merge loses waiting rows exactly if none of them has a column, and Sum always fails", "statement": "If one source sends two chunks before the other one sends rows, all its rows are emitted if and only if the first chunk is empty or has a row with a column; otherwise exactly those of the second chunk are. Streams whose rows have columns lose nothing. The Sum node is a TypeError on every input.", "quantifier": "every input, without the restrictions of C28", "why_tests_cant": "schedules are unbounded", "anchors": ["zounds/basic/basic.py: Merge"]}
{"id": "C84", "title": "Normalisation is undone exactly if constant features keep their mean and examples have an axis; scaling always", "statement": "Mean/std normalisation is undone if and only if every value of a feature whose deviation is zero equals the mean of that feature; unit norm is undone, silent examples included, if and only if examples have at least one axis; scaling examples that are not empty to a maximum value other than zero is always undone, although the scaled value of silence is whatever was in memory.", "quantifier": "every input, without the restrictions of C29", "why_tests_cant": "composition of unbounded length over reals", "anchors": ["zounds/learn/preprocess.py: Pipeline, PipelineResult, MeanStdNormalization, InstanceScaling, UnitNorm, Reshape, Slicer, Weighted, MuLawCompressed, Log, Multiply"]}
{"id": "C85", "title": "A closed byte range is answered as HTTP means it exactly if the file ends before the last byte asked for", "statement": "bytes=a-b with a <= b is answered with positions a to b inclusive if and only if the file has at most max(b, 1) bytes; otherwise the byte at b is missing, and bytes=0-0 gives the whole file. Suffix ranges get the whole file with status 200; a list of ranges is read as an open range from the first start; a range that starts after the end is 206 with an empty body; a reversed range gives everything from its start; an interval of seconds that ends at zero is reported as running to the end.", "quantifier": "all header strings and file sizes", "why_tests_cant": "strings and sizes are unbounded", "anchors": ["zounds/ui/contentrange.py: RangeUnitUnsupportedException, RangeRequest, ContentRange", "zounds/ui/serializer.py: DefaultSerializer", "zounds/ui/baseapp.py: BaseZoundsApp.feature_handler"]}
{"id": "C86", "title": "A note name is read exactly if it is one of twelve names followed by an octave; names of float notes never are", "statement": "A text is read as a note number if and only if it is one of the names C, C#, D, ... B followed by a decimal octave number (with optional sign, blanks and underscores); the number is twelve times the octave plus the pitch class. Flats, lower case and enharmonic spellings are refused. midi_to_note accepts a float, but the name it gives is refused by note_to_midi, for every number.", "quantifier": "every input, without the restrictions of C31", "why_tests_cant": "unbounded integers", "anchors": ["zounds/util/midi.py"]}
{"id": "C87", "title": "Absolute positions of a MemoryBuffer are right exactly if no write discarded anything", "statement": "After any history of writes, reads, seeks and tells, seek(k) followed by a read gives the bytes from position k of everything written, for every k, if and only if no write happened at a read position beyond the maximum size after something had been written. seek(tell()) leaves the position alone if and only if no unanswered seek to the end is pending or the content length happens to be the position.", "quantifier": "all operation histories and buffer sizes", "why_tests_cant": "compaction interleaved with reads", "anchors": ["zounds/soundfile/audiostream.py: MemoryBuffer"]}
{"id": "C88", "title": "Iterating over a sound file returns every sample exactly if it is short enough for its sample rate", "statement": "Iterating over a file second by second ends without an exception and returns every frame, once and in order, if and only if the number of whole seconds times (10^12 mod the sample period) is less than the sample period, in picoseconds: at 44100 Hz for all files shorter than 535 seconds and no others; at rates that divide 10^12 for all files.", "quantifier": "every input, without the restrictions of C33", "why_tests_cant": "drift appears only after hundreds of chunks", "anchors": ["zounds/soundfile/ogg_vorbis.py: OggVorbisWrapper.__getitem__, iter_chunks"]}
{"id": "C89", "title": "AudioSamples conversions: when they are what their names say", "statement": "mono of several channels is their average if and only if there are four channels or they cancel in every sample; going to stereo and back halves the signal; a column of n samples becomes one sample of 2n channels. silence with several channels has all samples that fit in the duration, all zero, if and only if the duration does not hold exactly one sample; silence_like is all ones; audio with a channel axis can never be padded. Subtraction does not compare sample rates. duration_in_seconds is the length of one sample.", "quantifier": "every signal and duration", "why_tests_cant": "values and lengths are unbounded", "anchors": ["zounds/timeseries/audiosamples.py: AudioSamples"]}
{"id": "C90", "title": "Applying a network in chunks makes no difference exactly if it treats rows one by one and there are rows", "statement": "apply_network gives the same result with every positive chunk size as without for all non-empty inputs if and only if the network maps every non-empty batch to the results of its single rows, one after the other. An empty input is a ValueError with any chunk size and fine without.", "quantifier": "every input, without the restrictions of C38", "why_tests_cant": "all chunk sizes and lengths", "anchors": ["zounds/learn/util.py: apply_network"]}
{"id": "C91", "title": "How many epochs a trainer runs, and what it reports", "statement": "One call of train runs all remaining epochs if and only if there are at most checkpoint_epochs of them; a stream of k data sets runs min(k * checkpoint_epochs, total) epochs, where the total is epochs for supervised and adversarial trainers and epochs + 1 for the base trainer and the triplet trainer. The triplet trainer trains whole batches only. A bound method cannot be unregistered. The supervised trainer reports both errors under their own names if and only if they are equal.", "quantifier": "every epoch count and batch count", "why_tests_cant": "loop bounds over unbounded integers", "anchors": ["zounds/learn/trainer.py: Trainer", "zounds/learn/supervised.py"]}
{"id": "C92", "title": "A url is processed at most once by every execution exactly if it does not repeat or is skipped", "statement": "With a pool of at least one worker, no execution of ingest processes a url more than once if and only if it occurs at most once in the data set or is in the database already and skip_if_exists is on; every url not skipped is processed at least once; every element without a request is dropped without an exception. With neither flag nothing is read or processed.", "quantifier": "every input, without the restrictions of C41", "why_tests_cant": "data sets are unbounded; the failure is one of laziness", "anchors": ["zounds/datasets/ingest.py: ingest"]}
{"id": "C93", "title": "FreeSoundSearch yields one sound more than asked for, starting again when results run out", "statement": "When a search has R > 0 results and the recursion limit leaves room, iterating yields exactly n_results + 1 sounds, the i-th being result i mod R. When the limit is reached first it yields what was found and raises RecursionError; a search without results always does. A negative number yields none.", "quantifier": "every number of results, page size and n_results", "why_tests_cant": "pagination boundary conditions", "anchors": ["zounds/datasets/freesound.py: FreeSoundSearch.__iter__"]}
{"id": "C94", "title": "A local file may hold any beginning of any answer, and nothing else", "statement": "After any calls of ensure_local_file, interrupted anywhere, a file that did not exist before may hold c if and only if c is a beginning of what the remote side sent in answer to one of the calls for a url with that file name; so it is sure to be complete only if all those answers were empty. Error pages are stored like any other answer, failures that raise leave an empty file, and every later call accepts what is there. DataSetCache raises on every text url and AudioMetaData.", "quantifier": "all crash points during download", "why_tests_cant": "crash points", "anchors": ["zounds/datasets/util.py: ensure_local_file", "zounds/datasets/cache.py: DataSetCache"]}
{"id": "C95", "title": "The span of a variable-rate series covers all its examples exactly if none outlasts the last one", "statement": "span covers every example of a VariableRateTimeSeries if and only if no example ends after the example that starts last; otherwise (documented nowhere) the longer example sticks out.", "quantifier": "all sets of examples, all slices", "why_tests_cant": "unbounded sets", "anchors": ["zounds/timeseries/variablerate.py: VariableRateTimeSeries"]}
{"id": "C96", "title": "unit_scale is defined exactly for vectors that are not constant", "statement": "unit_scale of a non-empty vector gives numbers, all in [0, 1], if and only if the vector has two different entries; a constant vector becomes all NaN.", "quantifier": "every input, without the restrictions of C46", "why_tests_cant": "continuous domain", "anchors": ["zounds/loudness/loudness.py: mu_law, inverse_mu_law, log_modulus, inverse_log_modulus, instance_scale, unit_scale"]}
{"id": "C97", "title": "An anonymous request is refused exactly if the secret is not empty, the route does not contain 'login' and the method is not PATCH", "statement": "A request without the cookie is redirected (GET, HEAD) or forbidden if and only if the secret is not empty, the pattern of its route does not contain the letters login and the method is not PATCH; in all other cases the handler itself answers.", "quantifier": "every input, without the restrictions of C47", "why_tests_cant": "routes and requests are unbounded; a missing wrap is silent", "anchors": ["zounds/ui/baseapp.py: BaseZoundsApp._secure_route, _make_app, login_handler, base_routes"]}
{"id": "C98", "title": "The bands of a Bark or Mel scale stay inside its band exactly if there are none", "statement": "The bands of a BarkScale or MelScale on a band from 0 Hz or above stay inside that band if and only if the scale has no bands; even the full slice of such a scale with two bands or more has a lower first centre frequency.", "quantifier": "all real frequencies, all bands and band counts", "why_tests_cant": "continuous domain; the conversions involve exp, log and square roots", "anchors": ["zounds/spectral/frequencyscale.py: Bark, Mel, BarkScale, MelScale, GeometricScale, ChromaScale._semitones_to_hz, _hz_to_semitones"]}
{"id": "C99", "title": "What inverse_categorical makes of categories", "statement": "For every signal in [-1, 1] with least sample m, inverse_categorical of categorical gives for sample v the value whose mu-law is half the mu-law distance of v from m, rounded down to a multiple of 1/255, less a half; in a signal that reaches -1 no sample with a mu-law value above 4/255 comes back within the width of a category. Normalisation divides by the largest sample; when that is zero the categories are those of uninitialised memory.", "quantifier": "every signal", "why_tests_cant": "continuous domain; the inverse uses a different offset and scale than the forward direction, visible only when values are compared", "anchors": ["zounds/timeseries/functional.py: categorical, inverse_categorical"]}
{"id": "C100", "title": "What windowing functions do to integer, stereo and overlapping windows", "statement": "A window whose coefficients are in [0, 1) silences integer audio. Audio with a channel axis is weighted along the channels: a Hanning window silences stereo, the ogg vorbis window leaves it as it is. The squares of ogg vorbis coefficients half a window apart add up to the same constant everywhere, which is above one for every even size, and analysis followed by synthesis multiplies by that constant; half-lapped Hanning windows add up to less than one.", "quantifier": "every input, without the restrictions of C50", "why_tests_cant": "numeric domain; the coefficient type and the broadcast axis depend on the data", "anchors": ["zounds/spectral/sliding_window.py: WindowingFunc, IdentityWindowingFunc, HanningWindowingFunc, OggVorbisWindowingFunc"]}
{"id": "C101", "title": "Feature urls work exactly for the base path /zounds/ and ids other than temp", "statement": "The url of a document's feature leads the feature route to that document and feature if and only if the base path is /zounds/. In the REPL and monitor applications the feature handler answers it for every id except temp, for which the handler of temporary results does.", "quantifier": "every input, without the restrictions of C51", "why_tests_cant": "unbounded strings through quoting, regular expressions and unquoting", "anchors": ["zounds/ui/baseapp.py: BaseZoundsApp.feature_path, base_routes, feature_handler", "zounds/ui/api.py: ZoundsApp.custom_routes", "zounds/ui/training_monitor.py: TrainingMonitorApp"]}
{"id": "C102", "title": "The training monitor keeps the last n + 1 values, or all of them for n = 0", "statement": "When every sampled batch reports a value, the history kept for a key is the last n_training_points + 1 values (all of them when there are fewer, or when n_training_points is zero).", "quantifier": "every run, batch frequency and number of points", "why_tests_cant": "history-dependent truncation over unbounded runs", "anchors": ["zounds/ui/training_monitor.py: TrainingMonitorApp._collect_training_history"]}
{"id": "C103", "title": "FFT windows are inverted exactly if their size is even and there is no padding", "statement": "The inverse FFT gives back every window of n samples transformed with p zeros of padding if and only if n is even, not zero, and p is zero. With other padding to an even size the window comes back followed by the padding, an odd size loses a sample, and FFTSynthesizer makes twice as many samples of windows padded to twice their size.", "quantifier": "every input, without the restrictions of C54", "why_tests_cant": "identities over all signals; sizes are unbounded", "anchors": ["zounds/spectral/functional.py: fft", "zounds/spectral/spectral.py: FFT, DCT", "zounds/synthesize/synthesize.py: FFTSynthesizer, DCTSynthesizer"]}
{"id": "C104", "title": "DCTIVSynthesizer inverts DCTIV exactly for windows of one sample", "statement": "Applying the DCT-IV node's transform twice gives every window of l samples back if and only if l is one; what the node computes is the DCT-IV of the window weighted by a cosine.", "quantifier": "every window of every size", "why_tests_cant": "a transform identity over all inputs; the project's own reconstruction test is skipped", "anchors": ["zounds/spectral/spectral.py: DCTIV", "zounds/synthesize/synthesize.py: DCTIVSynthesizer"]}
{"id": "C105", "title": "What the torch cosine transforms do: when they are inverse, which window they use, how they lay out their result", "statement": "idct of dct gives a signal back if and only if it has samples and the first is zero. Asking for the coefficients of a windowing function of a size that was used before gives the right ones if and only if they are those of the first function used with that size. short_time_dct of all signals of a length has coefficient i of window j at (i, j) if and only if windows have one sample or there is only one window.", "quantifier": "every signal, size, step, window function and sequence of calls", "why_tests_cant": "identities over all signals; the cache makes results depend on the history of calls", "anchors": ["zounds/learn/dct_transform.py: DctTransform"]}
{"id": "C106", "title": "phase_shift delays by the given time exactly if N m divides s (N - m)", "statement": "Shifting the phases of the m = N // 2 + 1 FFT coefficients of every window of N samples by a time of s samples is the transform of the window delayed by s samples if and only if N m divides s (N - m). In general it delays by s N / m samples, and a shift by a multiple of m samples does nothing.", "quantifier": "every window and shift", "why_tests_cant": "an identity over all signals and shifts; the tests only check shapes and that something changed", "anchors": ["zounds/spectral/functional.py: phase_shift"]}
{"id": "C107", "title": "When stretching by one changes nothing and pitch shifting keeps the length", "statement": "time_stretch by one gives all audio of a length back if and only if at every sample the squares of the coefficients of the windows over it add up to one, which they do not for the Hann windows used; pitch_shift keeps the length of all audio if and only if 1024 times 2^(-semitones/12) is a whole number, which it is not for whole numbers of semitones (up to 120) other than octaves.", "quantifier": "every signal, factor, number of semitones, hop, window length and windowing function", "why_tests_cant": "identities over all signals; the number of frames and of resampled windows varies without bound with the length", "anchors": ["zounds/spectral/functional.py: time_stretch, pitch_shift"]}
{"id": "C108", "title": "When spectral centroid and cepstral coefficients do not depend on the volume", "statement": "Multiplying a frame by c leaves its spectral centroid unchanged if and only if the frame is silent or |c| = 1. Multiplying frames by c > 0 leaves the cepstral coefficients without the zeroth of all frames unchanged if and only if c = 1, whatever the floor of the logarithm; it is the same as dividing the floor by c.", "quantifier": "every frame, volume, n_coeffs and exclude", "why_tests_cant": "inequalities between means over all frames; the tests check shapes only", "anchors": ["zounds/spectral/spectral.py: SpectralCentroid, SpectralFlatness, BFCC", "zounds/nputil/npx.py: safe_log"]}
{"id": "C109", "title": "What weightings do to sliced bands and parts of scales", "statement": "A-weighting a band sliced out of a frequency adaptive array where it began at column a keeps its columns from number a on and silences those before; so it has the weight of one demanded if and only if a = 0. A band of a scale keeps its weight in a part of the scale if and only if a band with the least A-weighting of the whole scale is in the part. The plain weighting's weights(array) are one per band if and only if there are as many rows as bands.", "quantifier": "every input, without the restrictions of C63", "why_tests_cant": "quantifies over all scales and array shapes; tests only compare sums of the first and last band", "anchors": ["zounds/spectral/weighting.py: FrequencyWeighting, AWeighting", "zounds/spectral/tfrepresentation.py: FrequencyDimension.weights, ExplicitFrequencyDimension.weights"]}
{"id": "C110", "title": "ChromaScale counts each band for the tone below its middle", "statement": "ChromaScale has one band, from tone s to tone s + 2, for every s from one below the lowest to three below the highest semitone of the range, and coefficient c is the sum over the bands with s = c modulo twelve; so a band is counted for the tone below its middle, and the two highest tones of the range are the middle of no band.", "quantifier": "every input, without the restrictions of C64", "why_tests_cant": "sums over unbounded sets of bins selected by bisection", "anchors": ["zounds/spectral/frequencyscale.py: FrequencyScale._basis, apply, ChromaScale._basis", "zounds/spectral/spectral.py: BaseScaleApplication, BarkBands, Chroma"]}
{"id": "C111", "title": "What becomes of dimensions outside the supported index forms", "statement": "For every array: an index with a numpy integer anywhere or with two lists of positions raises; a semantic slice after None is an IndexError on one axis and is answered by the dimension of the next axis on two; every q-th sample keeps the full rate; a product carries the array's column dimension on its columns and exists only if a frequency dimension there has the right number of bands; reshaping an array with an axis of length one to its own shape forgets all dimensions; windows of an array without identity dimensions need exactly one time dimension, and the windows get the frequency dimension if that comes first. There are arrays on which an integer beside a list, and None around a time slice, swap dimensions silently.", "quantifier": "arrays of any rank and any index expression of these forms", "why_tests_cant": "rank and index expressions are unbounded", "anchors": ["zounds/core/axis.py: ArrayWithUnits._compute_indices, _new_dims, sum, T, concat, reshape", "zounds/core/dimensions.py"]}
{"id": "C112", "title": "Search results can be iterated once", "statement": "Iterating over the results of a search a second time continues where the first iteration stopped, so after a complete iteration there is nothing.", "quantifier": "all databases, queries and n", "why_tests_cant": "unbounded contents", "anchors": ["zounds/index/brute_force.py: BruteForceSearch", "zounds/timeseries/constantrate.py: ConstantRateTimeSeries.iter_slices"]}
{"id": "C113", "title": "Adding up the bands gives a window back exactly if the largest band is all the others left over", "statement": "For every resampler and all sizes, adding up the bands of a frequency decomposition gives a window back if and only if the band of the largest size, brought back to the window's size, is the window less the bands below, brought back. If the window's own size is among the sizes it always does.", "quantifier": "every set of windows, every list of sizes, every choice of bands, every resampling function", "why_tests_cant": "a telescoping identity over any number of bands; tests use one list of sizes", "anchors": ["zounds/spectral/functional.py: frequency_decomposition", "zounds/synthesize/synthesize.py: FrequencyDecompositionSynthesizer"]}
{"id": "C114", "title": "Frequency-adaptive analysis is undone exactly if the weights of the bands add up to one", "statement": "Analysis followed by synthesis on the same linear scale gives all coefficients back if and only if, for the DCT, the weights of the bands add up to one at every coefficient, and for the FFT, moreover, the weights of the bands that begin or end there add up to zero. For adjoining bands and the default window of ones they do not, and the DCT node's default scale slices differently from the synthesizer's.", "quantifier": "every array of coefficients, scale, window function and number of windows", "why_tests_cant": "an identity over all coefficients and scales; overlapping bands interact", "anchors": ["zounds/spectral/spectral.py: FrequencyAdaptiveTransform", "zounds/synthesize/synthesize.py: BaseFrequencyAdaptiveSynthesizer, FrequencyAdaptiveDCTSynthesizer, FrequencyAdaptiveFFTSynthesizer"]}
{"id": "C115", "title": "When ticks keep time and stay within range, and silence is as long as noise", "statement": "With quotients of durations taken exactly (C322 says what double precision adds): Every tick k starts at k times the tick frequency if and only if that is a whole number of samples; otherwise ticks come ever earlier. Samples stay within [-1, 1] for all noise if and only if the sound ends before the second tick or ticks are at most one sample closer than a tenth of a second. Silence has as many samples as noise of the same duration if and only if that does not hold exactly one sample and counting in sample durations gives the same as multiplying by the rate.", "quantifier": "every sample rate, duration, list of frequencies, tick frequency and sequence of random draws", "why_tests_cant": "sums over any number of frequencies and ticks; lengths from divisions of unbounded integers", "anchors": ["zounds/synthesize/synthesize.py: SineSynthesizer, TickSynthesizer, NoiseSynthesizer, SilenceSynthesizer"]}
{"id": "C116", "title": "Resampled chunks have the requested rate, the channels of the input and the nearest number of samples", "statement": "When a stream's rate differs from the requested one, Resampler yields for every chunk one chunk of AudioSamples at the requested rate, with the channels of the input and a number of samples nearest to the chunk's length times the ratio of the rates (the even one of two equally near), whatever the native library answers within its contract; with a library that never fails every stream goes through, provided no chunk comes to exactly one sample.", "quantifier": "every stream of chunks of any lengths, pair of known rates, number of channels and behaviour of the native library", "why_tests_cant": "quantifies over all streams and over a stateful native library", "anchors": ["zounds/soundfile/resample.py: Resample, Resampler"]}
{"id": "C117", "title": "Audio already at the requested rate passes the resampler unchanged", "statement": "When the first chunk of a stream is at the requested rate, Resampler yields every chunk exactly as it came and never hands the native library anything to process.", "quantifier": "every stream and rate", "why_tests_cant": "quantifies over all streams", "anchors": ["zounds/soundfile/resample.py: Resample, Resampler"]}
{"id": "C118", "title": "The resampling library is given the stream's samples in order, after one second of silence", "statement": "Over a whole stream the native library is given one second of silence at the requested rate and then exactly the samples of the chunks in order, none left out and none twice, always with the same ratio, the end of input being announced exactly on the chunks processed after the input is finalized; so what it reads does not depend on how the stream was cut into chunks.", "quantifier": "every stream of contiguous chunks and native library", "why_tests_cant": "a property of the whole history of calls, for every way to cut the stream", "anchors": ["zounds/soundfile/resample.py: Resample, Resampler"]}
{"id": "C119", "title": "Resampling changes the length by at most half a sample per chunk", "statement": "The total length of the resampled stream differs from the input's length times the ratio of the rates by at most half a sample per chunk, and not at all when every chunk is a whole number of samples long at the new rate.", "quantifier": "every stream and pair of rates", "why_tests_cant": "an inequality accumulated over unboundedly many chunks", "anchors": ["zounds/soundfile/resample.py: Resample, Resampler"]}
{"id": "C120", "title": "Resampled samples are what the native library generated, followed by silence", "statement": "Each chunk Resampler yields consists of the frames the native library generated for that chunk, the answer to the initial silence being dropped, followed by silence when it generated fewer than there is room for.", "quantifier": "every stream and behaviour of the native library", "why_tests_cant": "quantifies over all histories of a stateful library", "anchors": ["zounds/soundfile/resample.py: Resample, Resampler"]}
{"id": "C121", "title": "When the length of resampled audio does not depend on how the stream is cut into chunks", "statement": "Two one-channel streams with the same samples at the same rate, cut into different chunks, always come to the same number of resampled samples if and only if the target rate is a multiple of the stream's rate.", "quantifier": "every two ways to cut a stream", "why_tests_cant": "every input, without the restrictions of C119", "anchors": ["zounds/soundfile/resample.py: Resample, Resampler"]}
{"id": "C122", "title": "A chunk can be resampled exactly if it does not come to a single sample", "statement": "A chunk whose length at the new rate rounds to one sample cannot be processed: TypeError for one channel, an overrun of the output buffer for more. For every other length the native library is told of exactly the room there is.", "quantifier": "every chunk length, rate and number of channels", "why_tests_cant": "a memory safety property over all lengths and rates", "anchors": ["zounds/soundfile/resample.py: Resample, Resampler"]}
{"id": "C123", "title": "When the resampler reads the frames of what stereo makes", "statement": "The frames the native library reads of the two-channel array that stereo makes of one channel are the frames of that array if and only if all samples are equal; for arrays that lie in memory frame after frame they always are.", "quantifier": "every array and memory layout", "why_tests_cant": "every input, without the restrictions of C118", "anchors": ["zounds/soundfile/resample.py: Resample, Resampler"]}
{"id": "C124", "title": "The first chunk's rate decides what the resampler does", "statement": "If the first chunk is at the requested rate, all chunks come out as they are, whatever their rate; otherwise every chunk comes out at the requested rate with the number of its samples times the ratio of the requested and the first chunk's rate, whatever its own rate.", "quantifier": "every stream", "why_tests_cant": "every input, without the restrictions of C116", "anchors": ["zounds/soundfile/resample.py: Resample, Resampler"]}
{"id": "C125", "title": "FilterBank's bands are the filters correlated with the signal", "statement": "FilterBank.convolve of any signal yields one band per filter; band b at time t is filter b, its middle tap on sample t, correlated with the signal, silence beyond both ends; log magnitude is never negative, zero exactly for numbers that are not positive and increasing; forward without normalization returns exactly as many samples per band as the signal has, for kernel sizes of both parities.", "quantifier": "every bank, kernel size and signal", "why_tests_cant": "quantifies over all real signals and filters", "anchors": ["zounds/learn/spectral.py: FilterBank"]}
{"id": "C126", "title": "FilterBank.transposed_convolve is the adjoint of convolve", "statement": "transposed_convolve turns bands of the length convolve makes of n samples into exactly n samples, and the inner product of convolve(x) with any bands y is the inner product of x with transposed_convolve(y).", "quantifier": "every bank, signal and set of bands", "why_tests_cant": "an algebraic identity over all real signals", "anchors": ["zounds/learn/spectral.py: FilterBank"]}
{"id": "C127", "title": "Normalization gives every example mean zero and a fixed deviation, and keeps the order of values", "statement": "batchwise_mean_std_normalization turns every example of at least two numbers into (a - mean) / (s + epsilon), which has sum zero and unbiased deviation s / (s + epsilon), so a constant example becomes all zeros; FilterBank.forward with normalization is such a transformation of the log magnitudes; a single number becomes NaN.", "quantifier": "every example and bank", "why_tests_cant": "quantifies over all real inputs", "anchors": ["zounds/learn/util.py: batchwise_mean_std_normalization", "zounds/learn/spectral.py: FilterBank"]}
{"id": "C128", "title": "FilterBank.transform averages the log magnitudes over the pooling window and labels the frames with stride and kernel", "statement": "FilterBank.transform returns one row per frame and one column per band, the frames at the sample period times the pooling stride and lasting the sample period times the pooling kernel; each entry is the average log magnitude of the band over the pooling window around the frame's sample; a single band or a single frame is refused with ValueError.", "quantifier": "every bank, pooling and signal", "why_tests_cant": "quantifies over all real signals and pooling sizes", "anchors": ["zounds/learn/spectral.py: FilterBank"]}
{"id": "C129", "title": "PerceptualLoss is bounded and least when input and target agree", "statement": "The features of an example of n samples are (n + basis_size) / lap + 1 numbers per band, none negative; with cosine similarity the loss of a batch is between -1 and 0 and is -1 when every example is compared with itself (unless its features are all but silent); with squared error it is not negative, symmetric, and zero exactly when all features agree.", "quantifier": "every bank, positive weights, log factor and batch", "why_tests_cant": "quantifies over all real batches; needs Cauchy-Schwarz", "anchors": ["zounds/learn/loss.py: PerceptualLoss"]}
{"id": "C130", "title": "Sizes and ranges of the convolutional layers", "statement": "With the default padding a multi-resolution layer of kernel k makes (n - 1) / s + 1 samples of n for odd k and n / s + 1 for even k; a gated layer's output lies strictly between -1 and 1 with the sign of its activation; whatever the parameters a sinc band starts at a frequency that is not negative and does not stop before it starts; feature_map_size's integer part is the number of samples of the convolution, and it is a whole number exactly when the stride divides.", "quantifier": "every kernel size, stride, input and parameter", "why_tests_cant": "quantifies over all sizes and real parameters", "anchors": ["zounds/learn/multiresolution.py: MultiResolutionBlock", "zounds/learn/gated.py: GatedConvLayer", "zounds/learn/sinclayer.py: SincLayer", "zounds/learn/util.py: feature_map_size"]}
{"id": "C131", "title": "Layers of a multi-resolution block make the same number of samples exactly if their kernels have one parity or the stride does not divide the input", "statement": "MultiResolutionBlock's layers make equally many samples of n samples, so that they can be concatenated, if and only if all kernel sizes have the same parity or the stride does not divide n.", "quantifier": "every list of kernel sizes", "why_tests_cant": "every input, without the restriction on parity", "anchors": ["zounds/learn/multiresolution.py: MultiResolutionBlock"]}
{"id": "C132", "title": "A frame of temporal pooling covers the samples its label says exactly if the kernel is one sample", "statement": "Frame t of the pooling in FilterBank.transform is labelled as the k samples from t times the stride on. For all signals it depends on those alone if and only if k is one; in general it is the average of the k samples from half a kernel before.", "quantifier": "every signal, pooling and frame", "why_tests_cant": "a property of all signals and labels", "anchors": ["zounds/learn/spectral.py: FilterBank"]}
{"id": "C133", "title": "Where the bands of a fresh sinc layer start and stop", "statement": "Right after construction the band of a SincLayer for a band from a to b Hz of its scale starts at samplerate / a and stops at 2 samplerate / a - samplerate / b. So it starts at a if and only if a is the square root of the rate, and stops at b if and only if 2 b samplerate = a b^2 + a samplerate, and higher bands start lower.", "quantifier": "every scale and sample rate", "why_tests_cant": "every scale", "anchors": ["zounds/learn/sinclayer.py: SincLayer"]}
{"id": "C134", "title": "The mu-law curve is odd, strictly increasing and maps [-1, 1] onto itself", "statement": "For every number of categories the curve CategoricalLoss and RawSampleEmbedding apply to samples is odd, strictly increasing, fixes -1, 0 and 1, and a value is within [-1, 1] exactly when the sample is.", "quantifier": "every number of categories and real sample", "why_tests_cant": "quantifies over all reals", "anchors": ["zounds/learn/loss.py: CategoricalLoss", "zounds/learn/sample_embedding.py: RawSampleEmbedding"]}
{"id": "C135", "title": "Discretized samples stay within the categories and keep their order", "statement": "Every batch that is not silent is discretized to numbers between 0 and n, in the order of the samples: zero to n/2, a sample at the positive peak of the batch (no other sample further from zero) to n and one at the negative peak to 0; a positive factor changes nothing and negation mirrors them; an empty batch is a RuntimeError and a silent one becomes NaN.", "quantifier": "every batch and number of categories", "why_tests_cant": "quantifies over all real batches", "anchors": ["zounds/learn/loss.py: CategoricalLoss"]}
{"id": "C136", "title": "The soft one-hot encoding is a probability distribution with its maximum at the nearest category", "statement": "The encoding of any number is n + 1 logarithms of probabilities that add up to one; a category nearer to the number is more probable, and a category hit exactly has probability at least 1 / (1 + n exp(-10^12)).", "quantifier": "every number and number of categories", "why_tests_cant": "quantifies over all reals", "anchors": ["zounds/learn/loss.py: CategoricalLoss"]}
{"id": "C137", "title": "CategoricalLoss is the mean negative log probability of the target's categories", "statement": "For log probabilities of shape (batch, n + 1, w) with even w and a target that is not silent, the loss is minus the mean log probability of the categories the target's samples fall into, all of them valid; it is not negative. Odd widths are refused when there are fewer examples than w - 1.", "quantifier": "every batch, width and number of categories", "why_tests_cant": "quantifies over all tensors", "anchors": ["zounds/learn/loss.py: CategoricalLoss"]}
{"id": "C138", "title": "What CategoricalLoss compares when it is given audio", "statement": "For audio compared with itself, with c the category of sample t of an example of w samples, CategoricalLoss is minus the mean log probability that sample number (c w + t) / (n + 1) of the example (not sample t) is in category (c w + t) mod (n + 1) (not in category c).", "quantifier": "every signal", "why_tests_cant": "every input", "anchors": ["zounds/learn/loss.py: CategoricalLoss"]}
{"id": "C139", "title": "Input and target agree about the category of a sample exactly if it lies in the lower half of the category", "statement": "The category of a sample as a target (truncated) is a most probable category of the same sample as an input if and only if the discretized sample is at most half a category above it.", "quantifier": "every sample", "why_tests_cant": "every input", "anchors": ["zounds/learn/loss.py: CategoricalLoss"]}
{"id": "C140", "title": "An example is discretized in a batch as it is alone exactly if nothing else in the batch is louder", "statement": "The discretization of an example that is not silent is the same alone and in a batch if and only if no sample of the other examples is further from zero than its own greatest.", "quantifier": "every batch", "why_tests_cant": "every pair of batches", "anchors": ["zounds/learn/loss.py: CategoricalLoss"]}
{"id": "C141", "title": "RawSampleEmbedding refuses every input", "statement": "Calling RawSampleEmbedding is a RuntimeError for every number of categories, all weights and every signal: its linear layer has n inputs, the encoding n + 1 columns.", "quantifier": "every number of categories and signal", "why_tests_cant": "every input", "anchors": ["zounds/learn/sample_embedding.py: RawSampleEmbedding"]}
{"id": "C142", "title": "The Wasserstein critic loss is an antisymmetric difference bounded by the distance of the batches", "statement": "WassersteinCriticLoss is the difference of the LearnedWassersteinLoss of real and fake batch; exchanging the batches changes its sign, equal batches give zero, a constant added to the critic changes nothing, and a critic that is 1-Lipschitz per example reports at most the mean distance of the examples in absolute value.", "quantifier": "every critic and pair of batches", "why_tests_cant": "quantifies over all critics", "anchors": ["zounds/learn/loss.py: LearnedWassersteinLoss, WassersteinCriticLoss, WassersteinGradientPenaltyLoss"]}
{"id": "C143", "title": "The gradient penalty is zero exactly for gradients of norm one", "statement": "The interpolates lie between the real and the fake numbers whatever random numbers are drawn; for a positive weight the penalty is not negative and zero exactly when the gradient has norm one for each example and column; for vectors a linear critic with coefficients w is penalised by weight (|w| - 1)^2; batches of different sizes are refused.", "quantifier": "every critic gradient, batch and draw of random numbers", "why_tests_cant": "quantifies over all critics and random draws", "anchors": ["zounds/learn/loss.py: LearnedWassersteinLoss, WassersteinCriticLoss, WassersteinGradientPenaltyLoss"]}
{"id": "C144", "title": "A gradient is not penalised for audio exactly if every single derivative is plus or minus one", "statement": "For audio of shape (batch, 1, n) the penalty of a critic's gradients at the mixtures of real and fake examples is zero if and only if every component of every one is 1 or -1; the norm of each whole gradient is then the root of n, so gradients of norm one go unpenalised only if n = 1.", "quantifier": "every critic", "why_tests_cant": "every input", "anchors": ["zounds/learn/loss.py: LearnedWassersteinLoss, WassersteinCriticLoss, WassersteinGradientPenaltyLoss"]}
{"id": "C145", "title": "sample_norm and batchwise_unit_norm divide by one positive number and bring the norm just under one", "statement": "sample_norm divides every column of an example by the same positive number, after which its mean square is m / (m + 10^-7), independently of other columns; batchwise_unit_norm divides every example by a positive number, after which its norm is s / (s + epsilon), below one.", "quantifier": "every example", "why_tests_cant": "quantifies over all real tensors", "anchors": ["zounds/learn/util.py: sample_norm, batchwise_unit_norm"]}
{"id": "C146", "title": "BandLoss is symmetric, not negative and zero for equal batches", "statement": "For every decomposition into bands and weight that is not negative BandLoss is not negative, symmetric and zero for equal batches; its features are the bands divided by their norms, each of norm below one, and the vector of the bands' norms, normalised alike.", "quantifier": "every decomposition, weight and batch", "why_tests_cant": "quantifies over all real batches", "anchors": ["zounds/learn/loss.py: BandLoss"]}
{"id": "C147", "title": "MetaData recognises every kind of source", "statement": "MetaData yields exactly one AudioMetaData per source: metadata unchanged; text that is an absolute url (and no other text) as a GET request of that url for all of its bytes; a path that exists, an in-memory file, a zip member or a file with its sample rate and channels; any other text as it is, and a ValueError for empty text.", "quantifier": "every source and state of the file system", "why_tests_cant": "quantifies over all texts and file systems", "anchors": ["zounds/soundfile/audio_metadata.py: MetaData"]}
{"id": "C148", "title": "Requests keep their method, url and headers", "statement": "A Request given to MetaData keeps its method, url and all headers; one with a header 'range' is not changed, any other asks for all bytes in addition, and the value sent for every other header is unchanged.", "quantifier": "every request", "why_tests_cant": "quantifies over all headers", "anchors": ["zounds/soundfile/audio_metadata.py: MetaData"]}
{"id": "C149", "title": "When a request for part of a resource stays one", "statement": "A Request is sent with the range it came with if and only if it has a header spelled range in lower case, or it asks for all bytes anyway.", "quantifier": "every request with a Range header", "why_tests_cant": "every spelling of the header", "anchors": ["zounds/soundfile/audio_metadata.py: MetaData"]}
{"id": "C150", "title": "Metadata of sources can be stored with every attribute", "statement": "Metadata is stored exactly when all its values have a JSON notation and its uri is not an open file (TypeError otherwise); the stored object has every attribute, the uri as text: the url of a request, nothing for an in-memory file or zip member. What MetaData makes of any url, request, path, in-memory file or zip member can be stored.", "quantifier": "every metadata and source", "why_tests_cant": "quantifies over all attributes and sources", "anchors": ["zounds/soundfile/audio_metadata.py: AudioMetaDataEncoder", "zounds/soundfile/audio_metadata.py: MetaData"]}
{"id": "C151", "title": "Metadata of a source can be stored exactly if the source is not an open file", "statement": "What MetaData makes of a url, request, path, in-memory file or zip member can be stored by AudioMetaDataEncoder; for an open file it is a TypeError.", "quantifier": "every source", "why_tests_cant": "every source, open files included", "anchors": ["zounds/soundfile/audio_metadata.py: AudioMetaDataEncoder", "zounds/soundfile/audio_metadata.py: MetaData"]}
{"id": "C152", "title": "AudioMetaData needs a uri, keeps its attributes and is compared by them", "statement": "Construction succeeds exactly with a uri that is neither None nor empty and without a keyword named request, and every attribute is then the one given; request is the uri if and only if that is a Request; equality is an equivalence relation and agrees with equality of uri, samplerate, channels, licensing, description and tags.", "quantifier": "every argument and pair of objects", "why_tests_cant": "quantifies over all arguments", "anchors": ["zounds/soundfile/audio_metadata.py: AudioMetaData"]}
{"id": "C153", "title": "What counts when metadata is compared", "statement": "Two AudioMetaData objects are equal if and only if their uri, samplerate, channels, licensing, description and tags are; other properties do not count. Equality is reflexive, symmetric and transitive.", "quantifier": "every pair of objects", "why_tests_cant": "every keyword", "anchors": ["zounds/soundfile/audio_metadata.py: AudioMetaData"]}
{"id": "C154", "title": "square keeps every band's loudest value and puts every coefficient in its place", "statement": "For bands of any sizes and any number n of coefficients the square view has one frame per frame, n rows per frame and one number per band, entry (t, k, b) being coefficient k of the resampled frame t of band b; resampling scales each frame by one positive number so that its greatest value is that of the original frame up to the tolerance.", "quantifier": "every set of bands, number of coefficients and resampling", "why_tests_cant": "quantifies over all coefficients", "anchors": ["zounds/spectral/frequencyadaptive.py: FrequencyAdaptive.square, rasterize, _resample"]}
{"id": "C155", "title": "Overlap-add of a square view adds the frames up", "statement": "With half overlap and an even number n of rows, square(n, do_overlap_add=True) has n/2 (T + 1) rows, and row s is the sum of the rows of all frames that cover it; without overlap it is the frames one after the other.", "quantifier": "every square array", "why_tests_cant": "quantifies over all sizes and numbers", "anchors": ["zounds/spectral/frequencyadaptive.py: FrequencyAdaptive.square, rasterize, _resample"]}
{"id": "C156", "title": "Overlap-add of a square view fails for frames that overlap by less than half", "statement": "square(n, do_overlap_add=True) is a ValueError for frames that overlap, but by less than half (with a whole number of rows in the overlap), whatever the coefficients and the number of frames: the output is allocated with the overlap instead of the hop.", "quantifier": "every overlap below one half", "why_tests_cant": "every overlap and size", "anchors": ["zounds/spectral/frequencyadaptive.py: FrequencyAdaptive.square, rasterize, _resample"]}
{"id": "C157", "title": "Overlap-add of a square view puts frame i at i times the overlap", "statement": "For frames of n rows that overlap by more than half, frame i is put at row i times the number of overlapping rows, not i times the number of rows the frames advance by, so the result is always longer than the sound.", "quantifier": "every overlap above one half", "why_tests_cant": "every overlap and size", "anchors": ["zounds/spectral/frequencyadaptive.py: FrequencyAdaptive.square, rasterize, _resample"]}
{"id": "C158", "title": "auto_correlogram is the autocorrelation of every filter's response", "statement": "For samples at least as long as the filters and a correlation window of w samples that fits, auto_correlogram has one window per position, 2 w lags and one number per filter: at lag index i the sum of products of the filter's responses that are |i - w| samples apart within the window, over the square root of 2 w; anything else is a ValueError.", "quantifier": "every signal, filter bank and window", "why_tests_cant": "quantifies over all signals and sizes", "anchors": ["zounds/spectral/functional.py: auto_correlogram"]}
{"id": "C159", "title": "Autocorrelograms are symmetric with their peak at lag zero", "statement": "Every autocorrelogram is real, symmetric about the middle lag, greatest in absolute value there (where it is the energy over the square root of 2 w), zero at the first lag index, zero throughout exactly when the filter does not respond, and grows with the square of the volume.", "quantifier": "every signal and filter bank", "why_tests_cant": "quantifies over all signals", "anchors": ["zounds/spectral/functional.py: auto_correlogram"]}
{"id": "C160", "title": "morlet_filter_bank makes symmetric wavelets of norm just below one at the bands' frequencies", "statement": "A bank is made exactly when there is one scaling or as many as bands (ValueError, TypeError otherwise); it has one symmetric filter of kernel_size taps per band, a Gaussian bell times a cosine of centre frequency c K / (K - 1) less a constant; normalization divides each filter by a positive number, after which its norm is n / (n + 10^-8).", "quantifier": "every scale, kernel size and scaling", "why_tests_cant": "quantifies over all scales", "anchors": ["zounds/spectral/functional.py: morlet_filter_bank"]}
{"id": "C161", "title": "fir_filter_bank designs every filter for its own band", "statement": "With one window for all bands or one for each, filter i is firwin2's for frequencies that do not decrease from 0 to the Nyquist frequency and for the window's values at equal steps through the part of band i that is in range, zero elsewhere.", "quantifier": "every scale and window", "why_tests_cant": "quantifies over all bands and windows", "anchors": ["zounds/spectral/functional.py: fir_filter_bank"]}
{"id": "C162", "title": "fir_filter_bank with fewer windows than bands makes zero filters for the remaining bands", "statement": "With a two-dimensional window with fewer rows than there are bands, a bank is made without exception, and all filters without a window are zero, whatever the bands.", "quantifier": "every number of windows", "why_tests_cant": "every scale", "anchors": ["zounds/spectral/functional.py: fir_filter_bank"]}
{"id": "C163", "title": "The hue of a rainbowgram is the rate of phase change", "statement": "Phases are unwrapped to within full turns with steps of at most half a turn, and a coefficient whose phase advances by a constant of less than half a turn per frame has that rate in every frame, whatever its magnitudes.", "quantifier": "every sequence of coefficients", "why_tests_cant": "quantifies over all real and complex sequences", "anchors": ["zounds/spectral/functional.py: rainbowgram"]}
{"id": "C164", "title": "Colour and brightness of a rainbowgram", "statement": "For two or more frames and coefficients that are not all equally strong there is one colour of three components per coefficient, that of its hue times a brightness that grows strictly with the absolute value of the real part, from 0 for the weakest to 1 for the strongest. If the rates of phase change are not all equal, the hue is the colour map's colour for a number between 0 and 1 that grows strictly with the coefficient's rate.", "quantifier": "every colormap and array of coefficients", "why_tests_cant": "quantifies over all arrays and colormaps", "anchors": ["zounds/spectral/functional.py: rainbowgram"]}
{"id": "C165", "title": "apply_scale adds up the real parts that touch each band", "statement": "apply_scale gives one number per frame and band of the new scale, the windowed sum of the absolute values of the real parts of the coefficients that touch the band.", "quantifier": "every scale, window and array", "why_tests_cant": "quantifies over all arrays and scales", "anchors": ["zounds/spectral/functional.py: apply_scale"]}
{"id": "C166", "title": "apply_scale depends on the sizes of the real parts alone", "statement": "What apply_scale gives depends on the absolute values of the coefficients' real parts alone: for coefficients with the same ones it is the same, and purely imaginary coefficients of any size give zero.", "quantifier": "every array of complex coefficients", "why_tests_cant": "every phase", "anchors": ["zounds/spectral/functional.py: apply_scale"]}
{"id": "C167", "title": "Exactly which stored features the web application serves, and as what", "statement": "A request for a feature of a document is answered if and only if the feature is an ogg file (all of it, a range of bytes, or an excerpt in seconds), or an array over time that can be drawn of which a range of seconds is asked for (an image), or it is stored as JSON and no range of seconds is asked for (its bytes).", "quantifier": "every feature, document and range", "why_tests_cant": "a decision over all features, shapes and ranges in the order of the serializers", "anchors": ["zounds/ui/serializer.py: matches, serialize of every serializer", "zounds/ui/baseapp.py: find_serializer, serialize, feature_handler"]}
{"id": "C168", "title": "Which stored features can be fetched through their url", "statement": "Of the features that are neither JSON nor ogg: an array feature cannot be fetched without a range of seconds, a feature of another class cannot be fetched at all, nor can time slices (onsets). In general a request is answered exactly if the feature is an ogg file, an array over time that can be drawn and a range of seconds was asked for, or stored as JSON without a range of seconds.", "quantifier": "every stored feature and range", "why_tests_cant": "every class of feature", "anchors": ["zounds/ui/serializer.py: matches, serialize of every serializer", "zounds/ui/baseapp.py: find_serializer, serialize, feature_handler"]}
{"id": "C169", "title": "The search page never gets its results", "statement": "Every search request is answered with an error, TypeError, whatever was searched and found: base64.b64encode gives bytes, which json.dumps refuses.", "quantifier": "every query and every list of results", "why_tests_cant": "every query", "anchors": ["zounds/ui/search.py: search_handler", "zounds/ui/serializer.py: SearchResultsSerializer, AudioSliceSerializer"]}
{"id": "C170", "title": "Audio shown in the REPL is written completely, once and in order", "statement": "Audio samples are serialized into an ogg file into which every sample is written once and in order, in nonempty runs of one second of which only the last can be shorter.", "quantifier": "every length and positive sample rate", "why_tests_cant": "quantifies over all lengths and rates", "anchors": ["zounds/ui/serializer.py: AudioSamplesSerializer"]}
{"id": "C171", "title": "Temporary urls keep giving the result they were announced with", "statement": "A url in the answer of the REPL gives a result of the announced content type, and that very result, after any further requests; a url that no answer contained is not found.", "quantifier": "every history of REPL requests with distinct uuids, every interpreter and serializer", "why_tests_cant": "quantifies over all histories", "anchors": ["zounds/ui/api.py: ReplHandler, TempHandler"]}
{"id": "C172", "title": "What the REPL does with a statement", "statement": "An expression is evaluated once and answered with the text of its value, and a url exactly if a serializer accepted it; any other statement is executed once and answered with what it printed; failures are answered with an error; sys.stdout is what it was afterwards in every case.", "quantifier": "every interpreter, statement and state", "why_tests_cant": "quantifies over all programs and states", "anchors": ["zounds/ui/api.py: ReplHandler.post, _add_url"]}
{"id": "C173", "title": "How often the REPL runs a statement", "statement": "A statement sent to the REPL is evaluated once, and then executed once more exactly if a SyntaxError came out of the evaluation (also one raised while it ran), or it evaluated but does not parse as a module; nothing else touches the variables.", "quantifier": "every statement", "why_tests_cant": "every program", "anchors": ["zounds/ui/api.py: ReplHandler.post"]}
{"id": "C174", "title": "When the REPL shows what an expression prints", "statement": "What an expression printed is in the answer if and only if it is part of the text of its value. What a statement that is not an expression prints is the answer.", "quantifier": "every statement that prints", "why_tests_cant": "every program", "anchors": ["zounds/ui/api.py: ReplHandler.post"]}
{"id": "C175", "title": "Which expressions that evaluate are answered with an error", "statement": "An expression that evaluates and parses is answered with status 200 if and only if no serializer raises. For one that is no feature of a document it is an error if and only if the value is a three-dimensional array without three or four entries in its last dimension, audio of rate zero, or the results of a search.", "quantifier": "every expression", "why_tests_cant": "every value", "anchors": ["zounds/ui/api.py: ReplHandler._add_url", "zounds/ui/serializer.py: NumpySerializer, generate_image"]}
{"id": "C176", "title": "The feature parser recognizes exactly the feature expressions", "statement": "A new parser gives a document and a feature for an expression if and only if it is a name bound to a document, a dot and the name of one of its features.", "quantifier": "every expression, document class and scope", "why_tests_cant": "quantifies over all expressions", "anchors": ["zounds/ui/featureparser.py: ExpressionVisitor, FeatureParser"]}
{"id": "C177", "title": "What a feature parser gives the second time", "statement": "A parser that gave a document and a feature before gives, for the next expression, that expression's if it is a feature expression, and the earlier ones otherwise.", "quantifier": "every sequence of statements", "why_tests_cant": "every history of a parser", "anchors": ["zounds/ui/featureparser.py: ExpressionVisitor, FeatureParser"]}
{"id": "C178", "title": "Onsets shown in the REPL are listed one by one in seconds", "statement": "A document's time slices are answered with a JSON list with one entry per slice, in order, with the document's audio and visualization urls and the start and duration in seconds.", "quantifier": "every list of time slices", "why_tests_cant": "quantifies over all lists", "anchors": ["zounds/ui/serializer.py: OnsetsSerializer, AudioSliceSerializer"]}
{"id": "C179", "title": "A k-means code points to the first nearest codeword, and decodes to it", "statement": "With a codebook of at least one codeword, KMeans encodes every row of the codewords' dimension as a single one at the first codeword of least euclidean distance; decoding the codes gives, row by row, codewords that nothing in the codebook is nearer than, and encoding those gives the same codes. Rows of another dimension are a ValueError.", "quantifier": "every codebook and every data", "why_tests_cant": "ties, equal codewords and every dimension", "anchors": ["zounds/learn/learn.py: KMeans"]}
{"id": "C180", "title": "Decoding k-means codes gives one row per one in the codes", "statement": "The backward transform of KMeans gives one row for every one in the codes - as many rows as codes if each has exactly one -, and is an IndexError if a one stands past the end of the codebook.", "quantifier": "every array of zeros and ones with one column per codeword", "why_tests_cant": "codes need not come from the forward transform", "anchors": ["zounds/learn/learn.py: KMeans"]}
{"id": "C181", "title": "A scikit-learn model sees one row per example and its inverse restores shape and numbers", "statement": "SklearnModel gives data of any shape to the model as one row per example in order; if the model's inverse undoes its transform on these rows, the backward transform gives the data back in its own shape.", "quantifier": "every model, every shape with at least one example and one number per example", "why_tests_cant": "quantifies over all shapes, data and models", "anchors": ["zounds/learn/sklearn_preprocessor.py: SklearnModel, WithComponents"]}
{"id": "C182", "title": "A scikit-learn model cannot transform an empty batch", "statement": "The forward transform of no examples is a ValueError, for every shape of the examples: the size of a row cannot be inferred.", "quantifier": "every model and every shape of examples", "why_tests_cant": "all shapes", "anchors": ["zounds/learn/sklearn_preprocessor.py: SklearnModel, WithComponents"]}
{"id": "C183", "title": "WithComponents restores examples that the components describe exactly if the mean is zero", "statement": "With orthonormal components, an example that differs from the mean by a combination of the components comes back without the mean, so unchanged if and only if the mean is zero.", "quantifier": "every set of components, mean and example", "why_tests_cant": "quantifies over all real matrices", "anchors": ["zounds/learn/sklearn_preprocessor.py: SklearnModel, WithComponents"]}
{"id": "C184", "title": "A stored operation does what its function does with its arguments", "statement": "An Op of a function that needs no names of its module or of enclosing functions does what the function does with the keyword arguments of the call updated with its own, provided these give every parameter after the first; its own arguments win.", "quantifier": "every function, argument and set of keyword arguments", "why_tests_cant": "every signature and every split of arguments", "anchors": ["zounds/learn/preprocess.py: Op"]}
{"id": "C185", "title": "When a stored operation behaves like the function it was made of", "statement": "Calling an Op gives what calling the function gives with the arguments of the call and its own, if the function uses no name of an enclosing function, its body means the same in the library's module and every parameter after the first is given. It is a TypeError if the function uses a name of an enclosing function or a parameter is not given, whatever its default value, and there are functions with names of their module for which it is a NameError.", "quantifier": "every function", "why_tests_cant": "every signature and every scope", "anchors": ["zounds/learn/preprocess.py: Op", "zounds/learn/preprocess.py: BasePreprocessor, Preprocessor._forward_func"]}
{"id": "C186", "title": "Inverting a preprocessor without a backward function is a TypeError", "statement": "The inverse of a BasePreprocessor without a backward function is a TypeError for every argument, not the NotImplementedError that its code means to raise.", "quantifier": "every data and inversion data", "why_tests_cant": "all calls", "anchors": ["zounds/learn/preprocess.py: BasePreprocessor"]}
{"id": "C187", "title": "The version of an operation tells functions and parameters of the same sizes apart", "statement": "Two operations with the same number of numeric parameters of the same sizes have the same version exactly if function and parameters are the same, unless the digest collides.", "quantifier": "every pair of operations", "why_tests_cant": "all parameter values", "anchors": ["zounds/learn/preprocess.py: Op", "zounds/learn/preprocess.py: Op._compute_version"]}
{"id": "C188", "title": "When two operations have the same version", "statement": "Two operations whose parameters are numbers or arrays have the same version if and only if their code and the bytes of their parameters, one after the other, are the same bytes (unless the digest collides): names, number and boundaries of the parameters do not count.", "quantifier": "every pair of operations of a function", "why_tests_cant": "all parameter names and values", "anchors": ["zounds/learn/preprocess.py: Op._compute_version"]}
{"id": "C189", "title": "Operations with parameters that are not numbers have a version that depends on where they are in memory", "statement": "A parameter that is no number or array (a slice, a function, a network) enters the version with its address: equal objects at different addresses give different versions unless the digest collides.", "quantifier": "every function and every parameter", "why_tests_cant": "all parameter values and runs", "anchors": ["zounds/learn/preprocess.py: Op._compute_version, Slicer"]}
{"id": "C190", "title": "An operation cannot have an operation or a pipeline as a parameter and a version", "statement": "Asking for the version of an operation with a parameter that has a version itself is a TypeError, whatever the other parameters are, if those before it can be hashed.", "quantifier": "every parameter with a version", "why_tests_cant": "all parameters", "anchors": ["zounds/learn/preprocess.py: Op._compute_version"]}
{"id": "C191", "title": "A pipeline's version identifies its operations and their order", "statement": "Two pipelines have the same version exactly if their operations have the same versions in the same order, unless the digest collides; a learned feature has the version it was given, otherwise its pipeline's.", "quantifier": "every two pipelines of any length", "why_tests_cant": "all lists of operations", "anchors": ["zounds/learn/preprocess.py: Pipeline.__init__", "zounds/learn/learn.py: Learned.version"]}
{"id": "C192", "title": "Parts of a pipeline are what Python's indexing says, and compose", "statement": "pipeline[i], pipeline[[i, j]] and pipeline[a:b] are the step, the steps and the run of steps that a list would give, with IndexError for missing positions; transforming with pipeline[:k] and then pipeline[k:] gives what the pipeline gives, and undoing them in reverse undoes it.", "quantifier": "every pipeline, index, data and step", "why_tests_cant": "every length, index and function", "anchors": ["zounds/learn/preprocess.py: Pipeline.__getitem__, transform, PipelineResult.inverse_transform"]}
{"id": "C193", "title": "A pipeline cannot be indexed with numpy integers", "statement": "pipeline[np.int64(i)] is a TypeError if step i exists and an IndexError otherwise.", "quantifier": "every pipeline and position", "why_tests_cant": "all positions", "anchors": ["zounds/learn/preprocess.py: Pipeline.__getitem__"]}
{"id": "C194", "title": "A network is trained once for each complete set of its inputs", "statement": "A network node is trained exactly after the arrivals with which all of its needs have delivered since the last training, with the last value that each of them delivered.", "quantifier": "every order in which the needs deliver, of any length", "why_tests_cant": "quantifies over all schedules", "anchors": ["zounds/learn/pytorch_model.py: PyTorchNetwork._enqueue, _dequeue"]}
{"id": "C195", "title": "If a trained network does not fit on the device with its training data the node raises AttributeError", "statement": "If applying the trained network to its training data raises RuntimeError, the node raises AttributeError and the network is lost (e.message does not exist in Python 3); a ValueError is raised again, except by an autoencoder's node, which has no data then; otherwise there is a result.", "quantifier": "every node, data and network", "why_tests_cant": "all failures", "anchors": ["zounds/learn/pytorch_model.py: PyTorchNetwork._process, PyTorchGan._process, PyTorchAutoEncoder._process"]}
{"id": "C196", "title": "A chunk size limits what a network is given during training only", "statement": "With a chunksize smaller than the trainer's batch size, training's final pass gives the network at most chunksize examples at once, but the stored operation gives it batch_size examples at once whenever there are as many.", "quantifier": "every chunk size, batch size and data", "why_tests_cant": "all sizes", "anchors": ["zounds/learn/pytorch_model.py: PyTorchNetwork._process"]}
{"id": "C197", "title": "A trained network survives storing and loading", "statement": "A result whose network has its constructor's arguments as members is loaded with a network of the same class, arguments and weights in evaluation mode, and the same functions, other arguments and name; without such a member storing is a KeyError, and loading weights of other names a RuntimeError.", "quantifier": "every class, network and result", "why_tests_cant": "all networks and weights", "anchors": ["zounds/learn/pytorch_model.py: PyTorchPreprocessResult.__getstate__, __setstate__", "zounds/persistence/util.py: extract_init_args"]}
{"id": "C198", "title": "A loaded operation with a network has its stored version exactly if the network is at the same address", "statement": "The version of an operation with a trained network is computed again after loading, from the address of the new network: unless the digest collides it is the stored one if and only if the addresses agree.", "quantifier": "every network", "why_tests_cant": "all networks", "anchors": ["zounds/learn/pytorch_model.py: PyTorchPreprocessResult.__getstate__, __setstate__", "zounds/persistence/util.py: extract_init_args"]}
{"id": "C199", "title": "A class with a single root becomes a streaming pipeline whose network can be loaded", "statement": "infinite_streaming_learning_pipeline accepts a class exactly if one feature has no needs (ValueError otherwise); the new class has the same features, the root needing a data set, and a pipeline of all of them; load_network gives the network of the first step that has one, RuntimeError if nothing is stored or no step has one.", "quantifier": "every set of features and every stored pipeline", "why_tests_cant": "all feature graphs", "anchors": ["zounds/learn/graph.py: infinite_streaming_learning_pipeline"]}
{"id": "C200", "title": "Making a streaming pipeline changes the class it is made of", "statement": "After infinite_streaming_learning_pipeline(cls) no feature of cls is without needs any more, so that cls cannot be processed from its root, and using it a second time is a ValueError.", "quantifier": "every class with a single root", "why_tests_cant": "all feature graphs", "anchors": ["zounds/learn/graph.py: infinite_streaming_learning_pipeline"]}
{"id": "C201", "title": "An Internet Archive item yields one sound per accepted file, from its own address", "statement": "Iterating over InternetArchive(id) yields one AudioMetaData for every file that the filter accepts, in the archive's order, whose request fetches that very file and whose metadata is what the archive says of its original, overlaid with the given attributes and the address of the page; ValueError without an id, nothing if the answer is not JSON.", "quantifier": "every answer of the archive whose accepted files name a known original, every filter and attributes the filter does not look at", "why_tests_cant": "quantifies over all answers, filters and attributes; entries are changed while the iteration goes on", "anchors": ["zounds/datasets/internetarchive.py: InternetArchive"]}
{"id": "C202", "title": "Which attributes given to InternetArchive change what is yielded", "statement": "With the default format filter, attributes given to InternetArchive leave the files that are yielded as they are, for every archive in good order, if and only if format is not among them (attributes whose names mean something to the library aside).", "quantifier": "every answer and every set of attributes", "why_tests_cant": "all attribute names and orders of files", "anchors": ["zounds/datasets/internetarchive.py: InternetArchive"]}
{"id": "C203", "title": "Whose metadata InternetArchive gives a sound", "statement": "An original file is yielded with its own metadata and a derived file with that of its original, the given attributes and the page's address on top. So what is said of a derived file is what the archive says of it exactly where the archive says the same of its original.", "quantifier": "every answer of the archive", "why_tests_cant": "all answers", "anchors": ["zounds/datasets/internetarchive.py: InternetArchive"]}
{"id": "C204", "title": "InternetArchive does not accept a format name as filter", "statement": "format_filter given as any text but the empty one is a TypeError on the first file of every archive that has files.", "quantifier": "every format name and item", "why_tests_cant": "all names", "anchors": ["zounds/datasets/internetarchive.py: InternetArchive"]}
{"id": "C205", "title": "An Internet Archive id without files is a KeyError", "statement": "For an id the archive's answer to which has no files the iteration is a KeyError, whatever the filter and attributes.", "quantifier": "every id", "why_tests_cant": "all answers", "anchors": ["zounds/datasets/internetarchive.py: InternetArchive"]}
{"id": "C206", "title": "NSynth yields every sound with its own bytes and description", "statement": "For descriptions that do not use the names uri, self, request or web_url, iterating over NSynth yields one AudioMetaData for every regular file that is no JSON file, in the order of the archive, with that file's bytes and the description the last JSON file gives of its name without directories and extension, wherever in the archive the JSON file is; a sound without description is a KeyError, an archive without JSON file a TypeError.", "quantifier": "every archive", "why_tests_cant": "quantifies over all orders and names of members", "anchors": ["zounds/datasets/nsynth.py: NSynth.__iter__", "zounds/datasets/predownload.py: PreDownload"]}
{"id": "C207", "title": "The stored metadata of a downloaded sound has no url", "statement": "A PreDownload keeps the url and the content it was given, but the metadata stored for it has null for its uri, whatever the url; without a url it cannot be made (ValueError).", "quantifier": "every content and url", "why_tests_cant": "all urls", "anchors": ["zounds/datasets/predownload.py: PreDownload", "zounds/soundfile/audio_metadata.py: AudioMetaDataEncoder._uri"]}
{"id": "C208", "title": "MusicNet yields nothing", "statement": "Iterating over MusicNet with any training file raises csv.Error before the first sound (the metadata file is opened in binary mode), or KeyError if the metadata file is empty.", "quantifier": "every metadata file and directory", "why_tests_cant": "all contents", "anchors": ["zounds/datasets/musicnet.py: MusicNet.__iter__"]}
{"id": "C209", "title": "PhatDrumLoops yields nothing", "statement": "Iterating over PhatDrumLoops is a TypeError for every page: a text pattern is applied to bytes.", "quantifier": "every page", "why_tests_cant": "all pages", "anchors": ["zounds/datasets/phatdrumloops.py: PhatDrumLoops.__iter__"]}
{"id": "C210", "title": "A Directory yields exactly its files, each once", "statement": "Iterating over Directory(path) yields the path of every entry that is no directory, each once and in the order of the listing, and nothing else.", "quantifier": "every listing and every path", "why_tests_cant": "quantifies over all listings", "anchors": ["zounds/datasets/filesystem.py: Directory"]}
{"id": "C211", "title": "A sound of freesound.org becomes metadata with all its properties, or KeyError", "statement": "The AudioMetaData of a freesound.org sound has its high quality preview, fetched with the caller's token, and its rate, channels, license, description, tags and page; if one is missing, KeyError.", "quantifier": "every answer of freesound.org", "why_tests_cant": "all sets of properties", "anchors": ["zounds/datasets/freesound.py: FreeSoundSearch._freesound_to_audio_metadata, get_by_id"]}
{"id": "C212", "title": "AudioStream emits every sample exactly once", "statement": "The chunks AudioStream emits, put together, are the samples of the file: for an uncompressed file however its bytes arrive, for flac and ogg whenever every chunk of bytes suffices to decode the next chunk of samples.", "quantifier": "every file, chunk size and arrival of the bytes", "why_tests_cant": "quantifies over all schedules of arrival", "anchors": ["zounds/soundfile/audiostream.py: AudioStream"]}
{"id": "C213", "title": "AudioStream ends a compressed stream at the first chunk of bytes that does not decode to a full chunk of samples", "statement": "For a compressed file, at the first chunk of bytes after which fewer samples can be decoded than will have been asked for, the stream ends with what can be decoded then; all the rest is lost without an exception.", "quantifier": "every compressed file and chunking", "why_tests_cant": "all chunkings", "anchors": ["zounds/soundfile/audiostream.py: AudioStream"]}
{"id": "C214", "title": "OggVorbis writes one complete ogg file with all the samples", "statement": "For an uncompressed file the node emits the bytes of exactly one opened, written and closed ogg file, which holds all samples in order, written in pieces of at most 20 seconds; an ogg file is passed on byte by byte.", "quantifier": "every file, encoder and arrival of the bytes", "why_tests_cant": "quantifies over all files and schedules", "anchors": ["zounds/soundfile/ogg_vorbis.py: OggVorbis", "zounds/soundfile/byte_depth.py: chunk_size_samples"]}
{"id": "C215", "title": "OggVorbis keeps of a flac file what can be decoded from its first chunk", "statement": "The ogg file OggVorbis makes of a flac file holds exactly the samples that can be decoded from the first chunk of bytes, whatever comes after.", "quantifier": "every flac file that arrives in more than one chunk", "why_tests_cant": "all chunkings", "anchors": ["zounds/soundfile/ogg_vorbis.py: OggVorbis", "zounds/soundfile/byte_depth.py: chunk_size_samples"]}
{"id": "C216", "title": "OggVorbis refuses subtypes without a byte depth", "statement": "A file of subtype ULAW, ALAW, GSM610, ALAC, OPUS, MPEG_LAYER_III, VOX_ADPCM or DPCM is a KeyError, also an ogg file that would be passed on; a subtype with an entry in the table of byte depths is processed.", "quantifier": "every subtype", "why_tests_cant": "all subtypes", "anchors": ["zounds/soundfile/ogg_vorbis.py: OggVorbis", "zounds/soundfile/byte_depth.py: chunk_size_samples", "zounds/soundfile/byte_depth.py: byte_depth"]}
{"id": "C217", "title": "The features of an audio graph do not depend on how the file arrives", "statement": "For an uncompressed file at the graph's sample rate every window feature is the transform of one window, weighted with the window function, of the mono signal of the whole file continued by zeros; every window that lies within the file is there, however the bytes are chunked.", "quantifier": "every file, chunking, window size, step, window function and transform", "why_tests_cant": "quantifies over all signals and schedules of arrival", "anchors": ["zounds/basic/audiograph.py: audio_graph, stft, resampled", "zounds/soundfile/audiostream.py: AudioStream", "zounds/soundfile/resample.py: Resampler", "zounds/spectral/sliding_window.py: SlidingWindow"]}
{"id": "C218", "title": "Supervised training steps once per minibatch with exactly that minibatch's gradient", "statement": "SupervisedTrainer.train makes one optimizer step for every minibatch of the rows not held out, in order, once per epoch left before the checkpoint, each with the gradient of exactly that minibatch; the minibatches contain every training row once with its label; for a network without running statistics held out rows, random draws and gradients left from before have no influence.", "quantifier": "every network, loss, optimizer, data set, holdout and number of epochs", "why_tests_cant": "quantifies over all networks, optimizers and data", "anchors": ["zounds/learn/supervised.py: SupervisedTrainer.train"]}
{"id": "C219", "title": "What held out data does to the network", "statement": "Training makes one optimizer step with the gradient of each minibatch of training rows; held out rows never change parameters given the statistics, but the rows drawn for the test after each minibatch enter the network's running statistics. After one minibatch, with the same training rows and other held out rows, parameters are the same, and the statistics are exactly if the network takes the two draws into its statistics with the same result.", "quantifier": "every network and held out data", "why_tests_cant": "all networks, including those with running statistics", "anchors": ["zounds/learn/supervised.py: SupervisedTrainer.train"]}
{"id": "C220", "title": "Training in several calls equals training in one", "statement": "For the supervised and the Wasserstein trainer, train for a epochs followed by train for b epochs gives the networks, optimizer states, random state, samples and callback calls of one train for a + b epochs.", "quantifier": "every network, data set and split of the epochs", "why_tests_cant": "quantifies over all histories of calls", "anchors": ["zounds/learn/supervised.py: SupervisedTrainer.train", "zounds/learn/wgan.py: WassersteinGanTrainer.train, freeze_generator, unfreeze_generator, freeze_discriminator, unfreeze_discriminator, _init_optimizers"]}
{"id": "C221", "title": "Triplet training in several calls", "statement": "One call of TripletEmbeddingTrainer.train for i + j epochs is one for i epochs gone on with for j epochs with the same optimizer; two calls go on with a new optimizer. So they give the same network if the optimizer's steps do not depend on what it remembers.", "quantifier": "every optimizer and data set", "why_tests_cant": "all histories of calls", "anchors": ["zounds/learn/embedding.py: TripletEmbeddingTrainer.train, _driver, _select_batch"]}
{"id": "C222", "title": "random_sample returns an input with what the network answered to it", "statement": "SupervisedTrainer.random_sample returns a pair of an input and the network's answer to it - with held out data of the last test batch -, never a label; a RuntimeError before training, a ValueError if the last batch was empty.", "quantifier": "every network and data set", "why_tests_cant": "all data and draws", "anchors": ["zounds/learn/supervised.py: SupervisedTrainer.random_sample, train"]}
{"id": "C223", "title": "A RuntimeError in a training batch becomes an AttributeError", "statement": "A RuntimeError of the network or loss in a training batch, whatever its message, ends supervised training with AttributeError: the handler reads e.message, which does not exist.", "quantifier": "every network, data set and message", "why_tests_cant": "all points of failure", "anchors": ["zounds/learn/supervised.py: SupervisedTrainer.train"]}
{"id": "C224", "title": "Wasserstein training alternates exact updates of critic and generator", "statement": "For every batch the Wasserstein trainer makes n_critic_iterations updates of the critic with the generator unchanged, then one update of the generator with the critic unchanged; every update uses the gradient of its own loss at fresh random draws and no gradient left over; optimizer states carry on between batches, epochs and calls.", "quantifier": "every pair of networks, optimizer, data set, number of iterations and epochs", "why_tests_cant": "quantifies over all networks and random draws", "anchors": ["zounds/learn/wgan.py: WassersteinGanTrainer.train, freeze_generator, unfreeze_generator, freeze_discriminator, unfreeze_discriminator, _init_optimizers"]}
{"id": "C225", "title": "The generator cannot be trained alone", "statement": "With n_critic_iterations=0 train ends in UnboundLocalError in the first batch: d_loss is unbound when the callbacks' arguments are made.", "quantifier": "every pair of networks and data set", "why_tests_cant": "all networks", "anchors": ["zounds/learn/wgan.py: WassersteinGanTrainer.train, freeze_generator, unfreeze_generator, freeze_discriminator, unfreeze_discriminator, _init_optimizers"]}
{"id": "C226", "title": "After adversarial training the critic is frozen and the generator trainable", "statement": "After every successful train of at least one batch no parameter of the critic requires gradients and every one of the generator does. Which parameters were frozen before training makes no difference: frozen ones are trained as well.", "quantifier": "every pair of networks and data set", "why_tests_cant": "all networks", "anchors": ["zounds/learn/wgan.py: WassersteinGanTrainer.train, freeze_generator, unfreeze_generator, freeze_discriminator, unfreeze_discriminator, _init_optimizers"]}
{"id": "C227", "title": "The triplet loss is bounded, zero exactly for separated triplets and equal to the margin for a collapsed network", "statement": "The loss TripletEmbeddingTrainer minimizes is at least 0 and at most 2 + eps*sqrt(dim) + margin, it is 0 exactly when each negative is farther from its anchor than the positive by the margin, and it is the margin when all embeddings agree.", "quantifier": "every batch of embeddings", "why_tests_cant": "quantifies over all real embeddings", "anchors": ["zounds/learn/embedding.py: TripletEmbeddingTrainer.train, _driver, _select_batch", "zounds/learn/util.py: batchwise_unit_norm"]}
{"id": "C228", "title": "What negative examples that are anchors cost", "statement": "Anchors and negatives of a triplet batch are drawn from all training examples. If m of n negatives are their own anchors, the loss is at least m/n of the margin (less the constant the distance adds) whatever the network computes, so it can be zero only if none is; with a single example all are.", "quantifier": "every data set and draw", "why_tests_cant": "all draws", "anchors": ["zounds/learn/embedding.py: TripletEmbeddingTrainer.train, _driver, _select_batch"]}
{"id": "C229", "title": "The triplet trainer does not work with its defaults", "statement": "A TripletEmbeddingTrainer made without deformations raises TypeError when it comes to its first batch.", "quantifier": "every network and data set", "why_tests_cant": "all data", "anchors": ["zounds/learn/embedding.py: TripletEmbeddingTrainer.train, _driver, _select_batch"]}
{"id": "C230", "title": "Resampling a sample rate scales its step and duration to the picosecond", "statement": "SampleRate.resample(ratio) and TimeDimension.resample(ratio) multiply step and duration by the ratio and drop the fraction of a picosecond; ValueError exactly when one of them would be below a picosecond. Whole ratios are exact, keep the overlap ratio and compose; 1/k undoes k; contiguous samples stay contiguous and overlapping ones never get a gap.", "quantifier": "every positive step, duration and ratio", "why_tests_cant": "quantifies over all rational ratios", "anchors": ["zounds/timeseries/samplerate.py: SampleRate.resample, overlap_ratio", "zounds/timeseries/timeseries.py: TimeDimension.resample, samplerate"]}
{"id": "C231", "title": "A ratio and its reciprocal undo each other exactly if the ratio makes whole picoseconds", "statement": "sr.resample(r).resample(1/r) is sr if and only if step and duration times r are whole numbers of picoseconds.", "quantifier": "every rate and ratio", "why_tests_cant": "all ratios", "anchors": ["zounds/timeseries/samplerate.py: SampleRate.resample, overlap_ratio", "zounds/timeseries/timeseries.py: TimeDimension.resample, samplerate"]}
{"id": "C232", "title": "HalfLapped windows have the asked for size at 44.1 kHz and the nearest size at other rates", "statement": "HalfLapped(window, hop) gives windows of exactly window samples every hop samples at 44100 samples per second, equal to SR44100().half_lapped() by default; at every other supported rate the whole number of samples nearest to the same time, up to a millionth.", "quantifier": "every window and hop size and every supported rate", "why_tests_cant": "all sizes", "anchors": ["zounds/timeseries/samplerate.py: HalfLapped, AudioSampleRate.half_lapped, SampleRate.discrete_samples"]}
{"id": "C233", "title": "HalfLapped windows overlap by half at every supported rate except 48000 and 16000", "statement": "The windows of HalfLapped() are exactly two hops long at every supported audio rate other than 48000 and 16000 samples per second, where they are one sample shorter.", "quantifier": "every supported rate", "why_tests_cant": "all rates", "anchors": ["zounds/timeseries/samplerate.py: HalfLapped, SampleRate.discrete_samples"]}
{"id": "C234", "title": "with_onsets finds no onsets", "statement": "There is no input for which the mixin made by with_onsets computes a detection function: the complex domain node raises IndexError or AttributeError for every array there is.", "quantifier": "every input of the complex domain node", "why_tests_cant": "all inputs", "anchors": ["zounds/basic/audiograph.py: with_onsets", "zounds/segment/onset.py: ComplexDomain._process"]}
{"id": "C235", "title": "A monitor page receives every reported batch while it is open, once and in order", "statement": "However many pages are opened and closed between batches, a page of a training monitor receives exactly one message for every batch whose number is a multiple of batch_frequency between its opening and its closing, in order, with epoch, batch and the graphed values the trainer reported; no callback raises as long as no connection breaks.", "quantifier": "every history of pages opening and closing and of batches", "why_tests_cant": "quantifies over all histories of events", "anchors": ["zounds/ui/training_monitor.py: TrainingMonitorApp.training_handler, TrainingHandler.open, on_close", "zounds/learn/trainer.py: Trainer.register_batch_complete_callback, unregister_batch_complete_callback, on_batch_complete"]}
{"id": "C236", "title": "Which batches a training monitor reports", "statement": "Trainers that number batches by their first row report batch k of an epoch exactly when k is a multiple of batch_frequency / gcd(batch_frequency, batch_size).", "quantifier": "every number of rows, batch size, batch frequency and batch", "why_tests_cant": "all sizes", "anchors": ["zounds/ui/training_monitor.py: TrainingMonitorApp.training_handler, TrainingHandler.open, on_close", "zounds/learn/trainer.py: Trainer.register_batch_complete_callback, unregister_batch_complete_callback, on_batch_complete", "zounds/learn/trainer.py: Trainer.train", "zounds/learn/supervised.py: SupervisedTrainer.train", "zounds/learn/wgan.py: WassersteinGanTrainer.train"]}
{"id": "C237", "title": "A training monitor reports every batch whose number is a multiple of the batch frequency divided by its gcd with the batch size", "statement": "With batch_frequency=f and minibatches of b rows, batch k of an epoch is reported if and only if f / gcd(f, b) divides k: every f-th batch only if f and b have no common divisor, every batch if f divides b.", "quantifier": "every batch size", "why_tests_cant": "all sizes", "anchors": ["zounds/ui/training_monitor.py: TrainingMonitorApp.training_handler, TrainingHandler.open, on_close", "zounds/learn/trainer.py: Trainer.register_batch_complete_callback, unregister_batch_complete_callback, on_batch_complete"]}
{"id": "C238", "title": "When opening and closing monitor pages disturbs training", "statement": "A notification of the pages is completed without an exception if and only if, whenever the training loop goes on to the next page, as many are registered as when it began and, for a batch that is reported, the connection of the page whose turn it is is not gone.", "quantifier": "every interleaving of the training and the server thread", "why_tests_cant": "all interleavings", "anchors": ["zounds/ui/training_monitor.py: TrainingMonitorApp.training_handler, TrainingHandler.open, on_close", "zounds/learn/trainer.py: Trainer.register_batch_complete_callback, unregister_batch_complete_callback, on_batch_complete"]}
{"id": "C239", "title": "Leaving an application's with block stops its server", "statement": "When the block of 'with app.start_in_thread(port)' ends after the server listens, then under every schedule of the two threads leaving it raises nothing, is never stuck, and afterwards no connection is accepted and the thread has ended.", "quantifier": "every schedule of main and server thread", "why_tests_cant": "quantifies over all interleavings", "anchors": ["zounds/ui/baseapp.py: BaseZoundsApp.start_in_thread, __exit__, _start"]}
{"id": "C240", "title": "When an application can be left", "statement": "Leaving the block of 'with app.start_in_thread(port)' raises AttributeError exactly in the schedules in which it ends before the server thread has bound the port, and in all if the port is taken; no schedule gives another error.", "quantifier": "every schedule of main and server thread", "why_tests_cant": "all interleavings", "anchors": ["zounds/ui/baseapp.py: BaseZoundsApp.start_in_thread, __exit__, _start"]}
{"id": "C241", "title": "Assignment through an index changes exactly what the index reads", "statement": "a[index] = value writes, for every index form (semantic slices, integers, slices with steps, several lists, None, ellipsis), precisely the positions a[index] reads, each with the value's number that numpy's broadcasting rule assigns to it (the last one for a repeated position); every other position and every other array keeps its numbers, reading back gives the value, and values that do not spread over the selection are a ValueError. An empty slice of positions along a frequency axis, which cannot be read (ValueError), can be assigned to, and nothing is written. zeros_like keeps shape and dimensions.", "quantifier": "every array, dimension, index, value and memory", "why_tests_cant": "quantifies over all arrays, index expressions and values", "anchors": ["zounds/core/axis.py: ArrayWithUnits.__setitem__, __getitem__, _compute_indices", "zounds/core/axis.py: ArrayWithUnits.zeros, zeros_like, from_example"]}
{"id": "C242", "title": "A slice of an array is a window onto it, an index with a list is a copy", "statement": "The result of an index without lists (and not of a single number) shares the array's memory: it always reads as indexing the array again, and writing to it changes the array at the positions selected by both indices and nowhere else. The result of an index with a list shares nothing with the array in either direction.", "quantifier": "every array, index and sequence of writes", "why_tests_cant": "quantifies over all index expressions and later writes", "anchors": ["zounds/core/axis.py: ArrayWithUnits.__setitem__, __getitem__, _compute_indices"]}
{"id": "C243", "title": "What indexing audio gives", "statement": "Slices of positions, slices of times and TimeSlices of audio are audio of the same sample rate with the samples the slice says, in order, also if the slice has a step (then every q-th sample is said to follow at the full rate); one position of mono audio is a number, one frame or one channel of audio with channels is an array that is not audio.", "quantifier": "every signal at a supported rate and every index", "why_tests_cant": "quantifies over all signals and indices", "anchors": ["zounds/timeseries/audiosamples.py: AudioSamples.__getitem__, samplerate", "zounds/core/axis.py: ArrayWithUnits.__setitem__, __getitem__, _compute_indices"]}
{"id": "C244", "title": "Windows of an audio signal begin every step and have the given duration, from two samples on", "statement": "AudioSamples.sliding_window(rate) gives, for rates that are whole numbers of samples and windows of two samples or more, windows of rate.duration every rate.frequency, with time dimensions that say so; with padding all samples are in a window under the condition of C02; without padding exactly those that lie within the signal, but none if the signal is exactly one window long. Windows of one sample are a ValueError.", "quantifier": "every signal, window rate and padding", "why_tests_cant": "quantifies over all lengths and rates", "anchors": ["zounds/timeseries/audiosamples.py: AudioSamples.sliding_window", "zounds/core/axis.py: ArrayWithUnits.sliding_window_with_leftovers", "zounds/nputil/npx.py: windowed"]}
{"id": "C245", "title": "What the frames of a short time Fourier transform are", "statement": "stft(x, window_rate, window) has one frame if the signal fits into a window, and otherwise one per completed hop (with windows that do not overlap, also for the one begun); frame i is the spectrum of the window function times the samples from i hops on, continued by zeros after the end.", "quantifier": "every signal, hop size, window size (at least the hop, at least two samples) and window function", "why_tests_cant": "all signals and sizes", "anchors": ["zounds/spectral/functional.py: stft, fft, apply_window", "zounds/spectral/spectral.py: FFT._process", "zounds/spectral/sliding_window.py: SlidingWindow"]}
{"id": "C246", "title": "A graph's fft feature is the stft of the whole sound", "statement": "However the samples of a sound arrive in chunks, the frames of SlidingWindow(wscheme, OggVorbisWindowingFunc) followed by FFT are those of stft of the whole sound: every frame that lies within the sound is there, one list begins with the other, and with half lapped windows at most the last, zero padded frame is missing.", "quantifier": "every sound, partition into chunks, hop and window size", "why_tests_cant": "all partitions of the stream", "anchors": ["zounds/spectral/functional.py: stft, fft, apply_window", "zounds/spectral/spectral.py: FFT._process", "zounds/spectral/sliding_window.py: SlidingWindow"]}
{"id": "C247", "title": "stft with window=None is a TypeError", "statement": "stft(x, window=None) is a TypeError for every signal, hop and window of two samples or more.", "quantifier": "every signal", "why_tests_cant": "all signals", "anchors": ["zounds/spectral/functional.py: stft, fft, apply_window", "zounds/spectral/spectral.py: FFT._process", "zounds/spectral/sliding_window.py: SlidingWindow"]}
{"id": "C248", "title": "A signal has the same frames alone and in a batch exactly if it is one window long", "statement": "With half lapped windows, stft of a batch gives the frames stft gives for a signal alone if the signal is exactly one window long; a longer signal lacks its last frame in the batch (the others are the same), a shorter one is a ValueError.", "quantifier": "every signal and half lapped windows", "why_tests_cant": "all signals and sizes", "anchors": ["zounds/spectral/functional.py: stft, fft, apply_window", "zounds/spectral/spectral.py: FFT._process", "zounds/spectral/sliding_window.py: SlidingWindow"]}
{"id": "C249", "title": "Operators and functions of an array with units act number by number and keep its units", "statement": "A numpy function or operator applied to an array with units, or to it and a number, a numpy array or another array with units of compatible shape, gives the function's value at every position (after broadcasting); incompatible shapes are a ValueError. If the result has as many axes as the array that owns it (the first operand with units), it is of its class and has its dimensions.", "quantifier": "every function, array and pair of operands", "why_tests_cant": "all arrays and shapes", "anchors": ["zounds/core/axis.py: ArrayWithUnits.__array_wrap__, __array_finalize__, __getitem__, __setitem__"]}
{"id": "C250", "title": "Expressions keep class, shape and dimensions", "statement": "An expression of any size built from an array with units, elementwise functions and operators, and numbers and numpy arrays that broadcast to its shape, is an array of the same class, shape and dimensions, with the expression's value at every position.", "quantifier": "every expression and array", "why_tests_cant": "all expressions", "anchors": ["zounds/core/axis.py: ArrayWithUnits.__array_wrap__, __array_finalize__, __getitem__, __setitem__"]}
{"id": "C251", "title": "Arrays of one shape can be combined whatever their units", "statement": "Two arrays with units of one shape are combined by operators whatever their dimensions are, and the result has the dimensions of the operand written first; concatenating them is refused if dimensions differ.", "quantifier": "every pair of arrays of one shape", "why_tests_cant": "all pairs of arrays", "anchors": ["zounds/core/axis.py: ArrayWithUnits.__array_wrap__, __array_finalize__, __getitem__, __setitem__"]}
{"id": "C252", "title": "When the dimensions of the result of an operator describe its axes", "statement": "The combination of an array whose dimensions fit with anything has, if it has units at all, the array's class and dimensions, and these fit if and only if every axis that has become longer (from one element) has a dimension without a size.", "quantifier": "every pair of arrays", "why_tests_cant": "all pairs of arrays", "anchors": ["zounds/core/axis.py: ArrayWithUnits.__array_wrap__, __array_finalize__, __getitem__, __setitem__"]}
{"id": "C253", "title": "Operators between arrays of different numbers of axes keep units exactly if the one with more axes is written first", "statement": "Combining an array with units and one with an additional leading axis gives an array with the units of the latter if that is written first, and a bare numpy array if it is written second.", "quantifier": "every pair of arrays", "why_tests_cant": "all pairs of arrays", "anchors": ["zounds/core/axis.py: ArrayWithUnits.__array_wrap__, __array_finalize__, __getitem__, __setitem__"]}
{"id": "C254", "title": "When numpy's reductions keep units", "statement": "mean, min, std and numpy's other reductions that ArrayWithUnits does not override give an array with units if and only if keepdims is given or no axis is reduced, then with all the old dimensions; otherwise a bare array or number.", "quantifier": "every array", "why_tests_cant": "all arrays", "anchors": ["zounds/core/axis.py: ArrayWithUnits.__array_wrap__, __array_finalize__, __getitem__, __setitem__"]}
{"id": "C255", "title": "When transpose() is T, and flatten() has one dimension", "statement": "transpose() has the shape and numbers of T; the same dimensions if and only if these read the same from both ends; dimensions that fit its axes if and only if every axis whose length changes has a dimension without a size. flatten() has dimensions that fit if and only if the array had one axis.", "quantifier": "every array", "why_tests_cant": "all arrays", "anchors": ["zounds/core/axis.py: ArrayWithUnits.__array_wrap__, __array_finalize__, __getitem__, __setitem__"]}
{"id": "C256", "title": "Augmented assignment changes the selected positions once", "statement": "a[index] op= v changes exactly the positions that a[index] reads, each once, to the operation's value for its old number and the number of v for that place of the selection (the last place, when a list names a position repeatedly), and is accepted exactly if v broadcasts to the selection's shape.", "quantifier": "every array, index, operation and value", "why_tests_cant": "all indices and values", "anchors": ["zounds/core/axis.py: ArrayWithUnits.__array_wrap__, __array_finalize__, __getitem__, __setitem__"]}
{"id": "C257", "title": "A trained preprocessing graph stores what it was trained to do", "statement": "Training preprocessing nodes one after the other stores a pipeline that, given the training data again, produces exactly the data the last node handed on (no value that is the same in all examples going into a standardisation, no silent example into a normalisation, see C258).", "quantifier": "every graph of preprocessing nodes and training data", "why_tests_cant": "all graphs and data", "anchors": ["zounds/learn/preprocess.py: _process of UnitNorm, MeanStdNormalization, InstanceScaling, \u2026; PreprocessingPipeline"]}
{"id": "C258", "title": "Standardisation gives every value that varies mean zero and variance one", "statement": "Over the training examples, a value after MeanStdNormalization has mean 0 and mean square 1 if it is not the same in all of them; if it is, it becomes uninitialised memory.", "quantifier": "every training set", "why_tests_cant": "all data", "anchors": ["zounds/learn/preprocess.py: MeanStdNormalization"]}
{"id": "C259", "title": "When a trained pipeline transforms its training data", "statement": "If training succeeds, the stored pipeline transforms the training data if and only if training handed on data to the end. A node goes on with None exactly if it is Sharpen without a kernel or with examples that are not one row of numbers.", "quantifier": "every graph and training set", "why_tests_cant": "all graphs and data", "anchors": ["zounds/learn/preprocess.py: AbsoluteValue, Sharpen, Binarize, UnitNorm _process"]}
{"id": "C260", "title": "Examples are preprocessed independently", "statement": "Transforming any selection of examples, in any order and with repetitions, gives that selection of the transformed examples.", "quantifier": "every pipeline, batch and selection", "why_tests_cant": "all batches and selections", "anchors": ["zounds/learn/preprocess.py: Pipeline.transform"]}
{"id": "C261", "title": "A learned feature does not depend on how the stream is cut", "statement": "Learned, computing a trained feature chunk by chunk, produces the transformed examples of the whole, one chunk for each incoming chunk, however the stream is cut.", "quantifier": "every pipeline, stream and partition into chunks", "why_tests_cant": "all partitions", "anchors": ["zounds/learn/learn.py: Learned._process", "zounds/learn/preprocess.py: Pipeline.transform"]}
{"id": "C262", "title": "inverse_transform restores class and dimensions", "statement": "Whatever the steps of a pipeline do to units, and however the transformed data was edited, inverse_transform gives an array of the class of the array that was transformed, with its dimensions.", "quantifier": "every pipeline of at least one step, array and edit", "why_tests_cant": "all pipelines and arrays", "anchors": ["zounds/learn/preprocess.py: Pipeline.wrap_data, PipelineResult.inverse_transform, unwrap"]}
{"id": "C263", "title": "The features of audio_graph line up and are those of the windows of the sound", "statement": "Whatever chunks the samples arrive in, dct, fft, bark, centroid, chroma and bfcc have the same number of frames, among them every window that lies within the sound, and frame i of each is computed from the i-th window of the sound, weighted by the ogg vorbis window.", "quantifier": "every sound, partition into chunks, hop and window size, scale", "why_tests_cant": "all sounds and partitions", "anchors": ["zounds/basic/audiograph.py: audio_graph", "zounds/spectral/spectral.py: FFT, DCT, BarkBands, SpectralCentroid, Chroma, BFCC"]}
{"id": "C264", "title": "The features of audio_graph do not depend on the chunk size", "statement": "The same samples cut differently give the same dct, fft, bark, centroid, chroma and bfcc: one run's features begin with the other's, and they agree on every window that lies within the sound.", "quantifier": "every sound and pair of partitions", "why_tests_cant": "all partitions", "anchors": ["zounds/basic/audiograph.py: audio_graph", "zounds/spectral/spectral.py: FFT, DCT, BarkBands, SpectralCentroid, Chroma, BFCC"]}
{"id": "C265", "title": "What Bark frequency cepstral coefficients are determined by", "statement": "The bfcc of two frames are the same if and only if the logarithms of the magnitudes of their spectra, bin by bin, differ by something orthogonal to the first 13 cosines. So the spectrum's magnitudes determine them, and the Bark bands do not.", "quantifier": "every frame", "why_tests_cant": "all spectra", "anchors": ["zounds/basic/audiograph.py: audio_graph", "zounds/spectral/spectral.py: FFT, DCT, BarkBands, SpectralCentroid, Chroma, BFCC"]}
{"id": "C266", "title": "A convolutional layer's samples come from where the hyperparameters say", "statement": "The convolution of Conv1d gives (n + 2p - d(k-1) - 1) // s + 1 samples of n, or RuntimeError if the padded signal is shorter than the kernel; sample t depends on the samples t s - p to t s - p + d(k-1) only, it is linear, and s samples of silence before the signal delay the result by one sample.", "quantifier": "every signal, weights, kernel size, stride, padding and dilation", "why_tests_cant": "all signals and hyperparameters", "anchors": ["zounds/learn/util.py: ConvLayer, Conv1d, ConvTranspose1d"]}
{"id": "C267", "title": "When mirrored layers restore the length of a signal", "statement": "A ConvTranspose1d with the hyperparameters of a Conv1d never lengthens the signal, loses less than one stride, and restores the length exactly if the stride divides n + 2p - d(k-1) - 1; a stack of layers and its mirrored stack restore it exactly if this is so at every layer.", "quantifier": "every signal length and stack of layers", "why_tests_cant": "all lengths and stacks of any depth", "anchors": ["zounds/learn/util.py: ConvLayer, Conv1d, ConvTranspose1d"]}
{"id": "C268", "title": "The transposed convolution is the adjoint of the convolution", "statement": "Where the length is restored, conv and transposed conv with the same weights satisfy <conv x, y> = <x, convT y> for all signals.", "quantifier": "every pair of signals, weights and hyperparameters", "why_tests_cant": "all signals", "anchors": ["zounds/learn/util.py: ConvLayer, Conv1d, ConvTranspose1d"]}
{"id": "C269", "title": "Outside training a layer treats examples on their own", "statement": "In evaluation mode (and in training without batch_norm or with sample_norm) the result for an example does not depend on the other examples in the batch, the layer keeps its statistics, and without training or dropout the result does not depend on random numbers.", "quantifier": "every layer, batch and random numbers", "why_tests_cant": "all batches", "anchors": ["zounds/learn/util.py: ConvLayer, Conv1d, ConvTranspose1d"]}
{"id": "C270", "title": "Batch normalization in training", "statement": "In training a batch-normalised channel has mean bias and variance weight^2 v/(v + 1e-5) over the batch; after k batches with the same statistics the running mean and variance are off by 0.9^k of the initial difference; a single value per channel is refused.", "quantifier": "every batch, layer state and number of batches", "why_tests_cant": "all batches and histories", "anchors": ["zounds/learn/util.py: ConvLayer, Conv1d, ConvTranspose1d"]}
{"id": "C271", "title": "sample_norm of two-dimensional layers normalises every pixel for single rows only", "statement": "Conv2d with sample_norm=True divides every number by the root mean square of the feature maps at its position for one example of one row; for every other size it raises RuntimeError, gives a result of another shape, or does not do so for some inputs.", "quantifier": "every batch of images", "why_tests_cant": "all shapes", "anchors": ["zounds/learn/util.py: sample_norm, Conv2d"]}
{"id": "C272", "title": "model_hash refuses every model", "statement": "model_hash(model) is a TypeError for every model: text is given to hashlib without encoding.", "quantifier": "every model", "why_tests_cant": "all models", "anchors": ["zounds/learn/util.py: model_hash"]}
{"id": "C273", "title": "gradients(network) works exactly while no parameter has a gradient", "statement": "gradients(network) lists nothing while no parameter has a gradient and raises IndexError as soon as one has; with debug_gradient=True training raises IndexError in its first batch, after a single step of the critic; without, every batch makes all its steps.", "quantifier": "every network and number of critic iterations", "why_tests_cant": "all training runs", "anchors": ["zounds/learn/util.py: gradients", "zounds/learn/wgan.py: _debug_network_gradient, train"]}
{"id": "C274", "title": "Units of the results of networks and hashes", "statement": "The results of a learned network keep the dimension of the examples they were computed from: PyTorchAutoEncoder and SimHash give the first dimension of the data followed by identities; PyTorchNetwork and PyTorchGan give units whenever the result has the right number of axes and the dimensions fit, a bare array otherwise, and never raise because of units.", "quantifier": "every data, dimensions and result shape", "why_tests_cant": "all shapes and dimensions", "anchors": ["zounds/learn/pytorch_model.py: PyTorchNetwork, PyTorchGan, PyTorchAutoEncoder", "zounds/learn/preprocess.py: SimHash"]}
{"id": "C275", "title": "The units of a gan's result describe it exactly if the network keeps the sizes of the middle axes", "statement": "PyTorchGan gives its result the time dimensions of the data: right if every middle axis keeps its size; if a window of m samples becomes one of another number of values the time dimension states another duration than the window has.", "quantifier": "every data and network", "why_tests_cant": "all networks and sizes", "anchors": ["zounds/learn/pytorch_model.py: PyTorchNetwork, PyTorchGan, PyTorchAutoEncoder"]}
{"id": "C276", "title": "Later nodes are trained on what the stored network computes", "statement": "What a learned network or hash hands on to the nodes that are trained after it is what its stored operation computes for the data it was applied to after training, one result per example, whatever the chunk sizes.", "quantifier": "every network treating examples on their own, training data and chunk sizes", "why_tests_cant": "all networks, data and chunk sizes", "anchors": ["zounds/learn/pytorch_model.py: PyTorchNetwork, PyTorchGan, PyTorchAutoEncoder", "zounds/learn/preprocess.py: SimHash"]}
{"id": "C277", "title": "A network is used the way later nodes saw it exactly if generator and discriminator agree on the training data", "statement": "PyTorchGan as constructed by default hands the discriminator's results on to later nodes and stores the generator: for the training data itself the stored operation gives what was handed on if and only if the two agree on it. PyTorchNetwork hands on what the network makes of the prepared data.", "quantifier": "every network, preparation and training data", "why_tests_cant": "all networks and data", "anchors": ["zounds/learn/pytorch_model.py: PyTorchNetwork, PyTorchGan, PyTorchAutoEncoder", "zounds/learn/preprocess.py: SimHash"]}
{"id": "C278", "title": "A request for a stretch of time gets the sound of that stretch", "statement": "An ogg feature asked for seconds=a-b (0 <= a <= b) is answered with the frames from the one playing at a on, as many whole frames as fit into b - a (fewer only if the file ends), seconds=a- with all frames from there on; beyond the end the request fails; consecutive requests never repeat a frame and skip at most one (times taken exactly; C324 states what double precision makes of them).", "quantifier": "every sound file, sample rate, header and pair of times", "why_tests_cant": "all files, rates and times", "anchors": ["zounds/ui/serializer.py: OggVorbisSerializer, ConstantRateTimeSeriesSerializer", "zounds/ui/contentrange.py: RangeRequest, ContentRange", "zounds/ui/baseapp.py: feature_handler", "zounds/soundfile/ogg_vorbis.py: OggVorbisWrapper"]}
{"id": "C279", "title": "What the Content-Range of a stretch of time says", "statement": "The Content-Range of the answer to seconds=a-b (b not 0) is a, b and the length of the file to the picosecond; of seconds=a- it is a and the length twice. The end is within the length if and only if b is not past the end of the file, and a reversed request is labelled as it was made although everything from its start is sent.", "quantifier": "every sound file and header", "why_tests_cant": "all files and times", "anchors": ["zounds/ui/serializer.py: OggVorbisSerializer, ConstantRateTimeSeriesSerializer", "zounds/ui/contentrange.py: RangeRequest, ContentRange", "zounds/ui/baseapp.py: feature_handler", "zounds/soundfile/ogg_vorbis.py: OggVorbisWrapper"]}
{"id": "C280", "title": "A request for a stretch of time of an array draws the rows of that stretch", "statement": "An array over time asked for seconds=a-b is drawn with exactly the rows that overlap it (but for a row beginning in the last 1/200 of a period before b), with status 206 and a Content-Range of a, b and the end of the last row; seconds=a- draws every row that reaches past a.", "quantifier": "every array, time dimension and header", "why_tests_cant": "all arrays, dimensions and times", "anchors": ["zounds/ui/serializer.py: OggVorbisSerializer, ConstantRateTimeSeriesSerializer", "zounds/ui/contentrange.py: RangeRequest, ContentRange", "zounds/ui/baseapp.py: feature_handler"]}
{"id": "C281", "title": "A gan experiment trains exactly if its minibatch preprocessing takes epoch and minibatch", "statement": "GanExperiment's training makes, for every minibatch, n_critic_iterations steps of the critic and one of the generator if and only if there is no preprocessing function or one of two arguments; with any other, its own default of one argument included, it ends with TypeError before the first step.", "quantifier": "every dataset, batch size and number of critic iterations", "why_tests_cant": "all training runs", "anchors": ["zounds/learn/gan_experiment.py: GanExperiment", "zounds/learn/wgan.py: WassersteinGanTrainer.train"]}
{"id": "C282", "title": "fake_audio is a sound the generator made, for batches of two or more", "statement": "After a batch of at least two sounds is complete, fake_audio() is one of them, number for number; after a batch of one sound it is a ValueError, before the first batch a TypeError.", "quantifier": "every batch of generated sounds and random choice", "why_tests_cant": "all batch sizes and choices", "anchors": ["zounds/learn/gan_experiment.py: GanExperiment"]}
{"id": "C283", "title": "Spectrograms of an experiment are of sounds of peak one exactly if the greatest sample is the peak", "statement": "fake_stft and real_stft scale the sound to a peak of one if and only if its greatest sample is not zero and no sample is further from zero than that one.", "quantifier": "every sound", "why_tests_cant": "all samples", "anchors": ["zounds/learn/gan_experiment.py: GanExperiment"]}
{"id": "C284", "title": "Searching an index returns the documents and times of the nearest segments", "statement": "However documents were added, by however many index objects over one path, search(feature, n) for fewer segments than are indexed returns document id, time slice and extra data of n of the segments whose codes are nearest to the query, in order of distance if sorted.", "quantifier": "every history of creating, adding and searching, every query, every legal sort of numpy", "why_tests_cant": "all histories and queries", "anchors": ["zounds/index/index.py: HammingIndex", "zounds/index/hammingdb.py: HammingDb"]}
{"id": "C285", "title": "A segment finds itself", "statement": "A sorted search for the code of an indexed segment begins with a segment of exactly this code, and with that segment itself if its code is unique.", "quantifier": "every history and indexed segment", "why_tests_cant": "all histories and queries", "anchors": ["zounds/index/index.py: HammingIndex", "zounds/index/hammingdb.py: HammingDb"]}
{"id": "C286", "title": "A document is indexed up to the first segment that cannot be", "statement": "add(_id) puts the segments of the document into the index up to the first that cannot be indexed, and returns normally if and only if there is none; so a document may be indexed in part.", "quantifier": "every document and history", "why_tests_cant": "all documents and histories", "anchors": ["zounds/index/index.py: HammingIndex", "zounds/index/hammingdb.py: HammingDb"]}
{"id": "C287", "title": "A binary feature can be indexed exactly if its code is a positive multiple of eight bytes", "statement": "The first code of an index is accepted if and only if its number of bits, rounded up to whole bytes, is a positive multiple of eight bytes.", "quantifier": "every number of bits", "why_tests_cant": "all sizes", "anchors": ["zounds/index/index.py: HammingIndex", "zounds/index/hammingdb.py: HammingDb"]}
{"id": "C288", "title": "Searching an empty index is a ValueError", "statement": "While nothing is indexed every search, by any index object and for whatever query and number of results, is a ValueError.", "quantifier": "every history that indexed nothing and every query", "why_tests_cant": "all histories and queries", "anchors": ["zounds/index/index.py: HammingIndex", "zounds/index/hammingdb.py: HammingDb"]}
{"id": "C289", "title": "The length of an index is the number of indexed segments exactly if it has opened the database", "statement": "len(index) is the number of segments indexed by any index object over the same path if and only if the index object has opened the database (it was created after something was indexed, or has added or searched since) or nothing is indexed.", "quantifier": "every history", "why_tests_cant": "all histories", "anchors": ["zounds/index/index.py: HammingIndex", "zounds/index/hammingdb.py: HammingDb"]}
{"id": "C290", "title": "When an index with extra data answers a search", "statement": "After any history of any number of index objects over one path, a search picks nearest segments and is answered with them if and only if the object has no extra_data functions or all of the segments it picked were indexed with extra data; otherwise it is a KeyError.", "quantifier": "every history", "why_tests_cant": "all histories", "anchors": ["zounds/index/index.py: HammingIndex", "zounds/index/hammingdb.py: HammingDb"]}
{"id": "C291", "title": "A random search draws the code of an indexed segment and returns exactly if a drawn id is not beyond the last one", "statement": "The code of a random search is that of an indexed segment, every indexed segment can be drawn, and the search returns if and only if one of the random ids drawn is not greater than the greatest id in the database - so never for an empty one.", "quantifier": "every history and sequence of random numbers", "why_tests_cant": "all histories and draws", "anchors": ["zounds/index/index.py: HammingIndex", "zounds/index/hammingdb.py: HammingDb"]}
{"id": "C292", "title": "Threads that append to one database lose nothing", "statement": "If any number of threads append to one HammingDb object, every code is stored once and as it is, memory holds the same codes as the store except for at most the one being committed, and no thread waits for ever.", "quantifier": "every number of threads, every list of codes per thread, every interleaving of their steps", "why_tests_cant": "all schedules", "anchors": ["zounds/index/hammingdb.py: HammingDb", "zounds/index/index.py: HammingIndex.listen"]}
{"id": "C293", "title": "What a search is answered for while other threads use the object", "statement": "In every schedule of threads that append to and search one HammingDb object, a search is answered for the last code any thread put into the object's buffer between the search's own two steps, its own query if none did, and for the codes then in memory. So it is answered for its own query exactly if no other code was put there last.", "quantifier": "every interleaving of appending and searching threads", "why_tests_cant": "all schedules", "anchors": ["zounds/index/hammingdb.py: HammingDb", "zounds/index/index.py: HammingIndex.listen"]}
{"id": "C294", "title": "What searches do to an append that is going on", "statement": "In every schedule, an append adds its id and its own code to the store, and to memory its id with the last code put into the buffer between its steps of filling and reading it: its own code, unless a search began just then. So memory has the appended code exactly if no other code was put there last; only searches can.", "quantifier": "every interleaving of appending and searching threads", "why_tests_cant": "all schedules", "anchors": ["zounds/index/hammingdb.py: HammingDb", "zounds/index/index.py: HammingIndex.listen"]}
{"id": "C295", "title": "A sound survives the fft graph and the FFTSynthesizer", "statement": "However the samples of a sound arrive, the fft feature over half lapped ogg vorbis windows given to FFTSynthesizer makes a sound at least as long as the original, which is the original times one constant (1/max(window)^2) except for half a window at either end.", "quantifier": "every sound, every chunking of it, every even window size", "why_tests_cant": "all sounds and chunkings", "anchors": ["zounds/basic/audiograph.py: stft", "zounds/spectral/sliding_window.py: SlidingWindow", "zounds/synthesize/synthesize.py: FFTSynthesizer, MDCTSynthesizer"]}
{"id": "C296", "title": "A sound survives the mdct and the MDCTSynthesizer, with the same result", "statement": "The same holds for the mdct feature and MDCTSynthesizer, and both ways of resynthesis agree except for half a window at either end, even if the sound arrived in different chunks.", "quantifier": "every sound, every pair of chunkings, every even window size", "why_tests_cant": "all sounds and chunkings", "anchors": ["zounds/basic/audiograph.py: stft", "zounds/spectral/sliding_window.py: SlidingWindow", "zounds/synthesize/synthesize.py: FFTSynthesizer, MDCTSynthesizer"]}
{"id": "C297", "title": "Resynthesis makes a sound louder", "statement": "A sound analysed by the fft feature and resynthesised by FFTSynthesizer comes back louder in every sample that is not zero and not within half a window of an end, for every window size, by the exact factor given in C295.", "quantifier": "every sound, chunking and window size", "why_tests_cant": "all sounds", "anchors": ["zounds/basic/audiograph.py: stft", "zounds/spectral/sliding_window.py: SlidingWindow", "zounds/synthesize/synthesize.py: FFTSynthesizer, MDCTSynthesizer"]}
{"id": "C298", "title": "Sampling feature arrays with units fails exactly if all draws for the surplus rows of a chunk are rejected", "statement": "ReservoirSampler over chunks of ArrayWithUnits raises IndexError if and only if, for some chunk, there are rows beyond the capacity and every random number drawn for them is not a slot; otherwise it returns what it returns for plain arrays. Of all equally likely draws for m further rows that arrive one at a time at a full sampler of n rows only n^m do not fail.", "quantifier": "every chunking, every sequence of random draws", "why_tests_cant": "the failure depends on random numbers; a test with large chunks never meets it", "anchors": ["zounds/learn/random_samples.py: ReservoirSampler._enqueue", "zounds/core/axis.py: ArrayWithUnits._tuplify"]}
{"id": "C299", "title": "Merged features are arrays of the common time dimension, as wide as all sources together", "statement": "Merge over features with units that have the same time dimension and a second axis without meaning never fails: everything it emits is an array of that time dimension, its width the sum of the widths of the sources, and the rows, in order, are row i of all sources side by side for every row i all sources have sent.", "quantifier": "every number of sources, all widths, every schedule of arrivals and chunk sizes", "why_tests_cant": "schedules and widths are unbounded", "anchors": ["zounds/basic/basic.py: Merge", "zounds/core/axis.py: ArrayWithUnits.concat, ArrayWithUnits.concatenate, ArrayWithUnits.__getitem__"]}
{"id": "C300", "title": "Features with a frequency axis cannot be merged", "statement": "Merge over features whose second axis is a frequency dimension (spectra, of equal or different scales) never emits anything: as soon as every source has sent a row it raises.", "quantifier": "every number of sources and scales, every schedule of arrivals and chunk sizes", "why_tests_cant": "schedules and scales are unbounded", "anchors": ["zounds/basic/basic.py: Merge", "zounds/core/axis.py: ArrayWithUnits.concat, ArrayWithUnits.concatenate, ArrayWithUnits.__getitem__"]}
{"id": "C301", "title": "Cutting a spectrum by frequency keeps every column with its band", "statement": "x[:, band], x[:, Hertz(f):Hertz(g)] and x[:, i:j] of a spectrum on a linear, geometric or explicit scale keep the frames, select exactly the columns whose bands touch the range (or whose positions are in it), in order, and the frequency dimension of the result has exactly the bands of these columns. A cut that selects nothing is a ValueError, a Hertz slice that ends before it begins an AttributeError. Not so for a single column of a linear scale (its bands cannot be computed any more, so a second cut fails) and for slices with a step (the result is labelled with wider bands than its columns had); a chroma axis cannot be cut at all.", "quantifier": "every number of frames, scale, band, range, step", "why_tests_cant": "scales, ranges and sizes are unbounded", "anchors": ["zounds/core/axis.py: ArrayWithUnits.__getitem__, _compute_indices, _new_dims", "zounds/spectral/tfrepresentation.py: FrequencyDimension", "zounds/spectral/frequencyscale.py: FrequencyScale.get_slice, __getitem__, _construct_scale_from_slice"]}
{"id": "C302", "title": "Arrays with units cannot be indexed by the positions np.where finds; ComplexDomain tries to, and ignores the size of phase deviations", "statement": "ComplexDomain raises for every input; indexing a two-dimensional ArrayWithUnits by the positions np.where finds is refused whatever its dimensions are. The detection function it computes before that is the sum of the two magnitudes if the phase deviation is negative and their difference otherwise.", "quantifier": "every spectrum, all dimensions", "why_tests_cant": "all inputs", "anchors": ["zounds/segment/onset.py: ComplexDomain", "zounds/basic/audiograph.py: with_onsets", "zounds/core/axis.py: ArrayWithUnits.__getitem__"]}
{"id": "C303", "title": "apply_scale needs its window", "statement": "apply_scale(x, scale) with its default window is a TypeError exactly if some band of the scale touches one of the spectrum's; otherwise it is all zeros.", "quantifier": "every pair of scales, every spectrum", "why_tests_cant": "scales and spectra are unbounded", "anchors": ["zounds/spectral/functional.py: apply_scale", "zounds/spectral/frequencyscale.py: FrequencyScale._basis"]}
{"id": "C304", "title": "The chroma of a frequency band counts the tones of that band", "statement": "Chroma over a band above 0 Hz counts the bands of all tones from one below the semitone nearest to the start to three below the one nearest to the stop. So nothing in the top half semitone (or more) of the band is counted, and up to one and a half semitones below it are. Over a band that starts at 0 Hz it is an OverflowError, below 0 Hz a ValueError.", "quantifier": "every band, spectrum and scale of the spectrum", "why_tests_cant": "bands and spectra are unbounded", "anchors": ["zounds/spectral/frequencyscale.py: ChromaScale", "zounds/spectral/spectral.py: Chroma"]}
{"id": "C305", "title": "A network that cannot process its training data at once does not lose the training", "statement": "Refuted: PyTorchNetwork, PyTorchGan and PyTorchAutoEncoder mean to warn and go on with less or no data when the trained network raises RuntimeError (out of memory) on the training data; in fact they raise AttributeError exactly then, and the trained network is lost. Other errors of the network are passed on unchanged, except that a ValueError in the autoencoder leaves later nodes without examples and the encoder stored.", "quantifier": "every trained network, training set, preparation and batch size", "why_tests_cant": "networks and data sets are unbounded", "anchors": ["zounds/learn/pytorch_model.py: PyTorchNetwork._process, PyTorchGan._process, PyTorchAutoEncoder._process", "zounds/learn/util.py: apply_network"]}
{"id": "C306", "title": "Percussive onsets do not depend on how the sound arrives, and the slices between them cover the sound", "statement": "For the graph MeasureOfTransience, SlidingWindow of w frames padded by w//2, MovingAveragePeakPicker: however the spectra are cut into chunks, a frame with w - w//2 frames left in the sound starts a slice exactly if the frame before it is a peak of the detection function and the frame still exceeds 1.25 times the aggregate of the w frames around it (zeros outside the sound); only such frames and 0 start slices, and with mean or median all of them are in the sound. Refuted: the end. A sound that arrives at once gets slices that end w//2 frames after it, or after a single frame if it has no more than w - w//2; cut differently, the last onset is missed and the slices end before the sound does.", "quantifier": "every spectrum, way of cutting it into chunks, aggregate, window size of at least 4, frame rate", "why_tests_cant": "spectra, chunkings and windows are unbounded", "anchors": ["zounds/segment/onset.py: MeasureOfTransience, MovingAveragePeakPicker", "zounds/spectral/sliding_window.py: SlidingWindow", "examples/segmentsearch.py"]}
{"id": "C307", "title": "Sharpen convolves every example with its kernel; mu-law compression is the 8-bit one", "statement": "Sharpen replaces number j of every example by the convolution of the example (zeros outside) with the kernel, centred at j, or zero if that is negative. MuLawCompressed keeps signs and turns sizes s into log(1 + 255 s) / log 256, so 0 and plus or minus 1 stay what they are.", "quantifier": "every kernel, batch and position", "why_tests_cant": "batches and kernels are unbounded", "anchors": ["zounds/learn/preprocess.py: Sharpen, MuLawCompressed", "zounds/loudness/loudness.py: mu_law"]}
{"id": "C308", "title": "Features pooled over the slices between percussive onsets are pooled from the frames of their slice, and there always are some", "statement": "Take the slices of C306 (sound of at least half a window, mean or median), and pool any feature with one row per frame over them, slices and rows arriving at Pooled in any order: the entry of the slice from frame a to frame b is the operation applied to the rows a+1-m to b-1, where a row lasts m frame steps; these are never empty, so np.max and np.mean are defined. With m = 1 every row before the end of the last slice is in exactly one entry. Refuted for overlapping frames: with m = 2 (the short time Fourier transform) the frame before every onset is also pooled into the slice after it.", "quantifier": "every spectrum, chunking, feature, pooling operation, order of arrival, frame length", "why_tests_cant": "all inputs and schedules", "anchors": ["zounds/basic/basic.py: Pooled", "zounds/timeseries/timeseries.py: TimeDimension.integer_based_slice", "zounds/segment/onset.py: MovingAveragePeakPicker", "examples/segmentsearch.py"]}
{"id": "C309", "title": "A sinc layer filters with windowed band pass filters", "statement": "With an even number of taps, sample i of a band's row is the sum over the taps of the ideal band pass filter of the band's two frequencies times the Hamming window times the samples around i (zeros outside the signal), and a row has one sample more than the signal. Refuted: with an odd number of taps from three on (for which rows are as long as the signal) everything is NaN, since the middle tap is sin(0)/0; and no filter is symmetric, because the Hamming window is the periodic one.", "quantifier": "every number of taps, list of bands, state of the parameters with non-zero first frequency, signal", "why_tests_cant": "filters and signals are unbounded", "anchors": ["zounds/learn/sinclayer.py: SincLayer._sinc, SincLayer._filter_bank, SincLayer.forward"]}
{"id": "C310", "title": "Which scales overlap enough", "statement": "GeometricScale(s, e, r, n) with s <= e, 0 < r <= 2 and n >= 2 passes ensure_overlap_ratio(q), q > 0, exactly if q r <= (1 + r/2) - g (1 - r/2), where g = (e/s)^(1/(n-1)); a scale with more bands over the same range passes whenever one with fewer does. A linear scale passes for no positive ratio. In every other case it is an AssertionError.", "quantifier": "every range, bandwidth ratio, number of bands and required ratio", "why_tests_cant": "ranges and numbers of bands are unbounded", "anchors": ["zounds/spectral/frequencyscale.py: FrequencyScale.ensure_overlap_ratio, GeometricScale, LinearScale, FrequencyBand.intersection_ratio"]}
{"id": "C311", "title": "safe_unit_norm gives vectors unit length", "statement": "A vector that is not all zero is scaled by a positive factor to length 1, whatever its own length was; zeros stay zeros; an array with two axes is normalised row by row. Refuted for three axes: ValueError unless the last two sizes are equal or one of them is 1; with equal sizes entry k of every vector is divided by the length of vector k of its plane instead of its own.", "quantifier": "every vector, matrix and array with three axes of real numbers", "why_tests_cant": "arrays are unbounded", "anchors": ["zounds/nputil/npx.py: safe_unit_norm"]}
{"id": "C312", "title": "The torch cosine transforms work along any axis", "statement": "Along the last axis (the default) dct transforms every row on its own, and what dct_resample's zero_slice removes and what it leaves add up to the resampled rows. Refuted along another axis: dct and idct raise RuntimeError if its size differs from that of the last axis, and transform along the last axis otherwise; dct_resample returns the rows unchanged but for their first numbers, which are doubled, cut off or filled up with rows of zeros, and zero_slice makes rows zero.", "quantifier": "every batch, axis size, new size and zero_slice", "why_tests_cant": "batches are unbounded", "anchors": ["zounds/learn/dct_transform.py: DctTransform.dct, DctTransform.idct, DctTransform.dct_resample"]}
{"id": "C313", "title": "Packing the bits of an array keeps the bits and the units of the other axes", "statement": "x.packbits(axis=k) has the bits of axis k in order, eight to a byte, filled up with zeros; the other axes keep their dimensions, and an identity axis can always be packed. Refuted: a frequency axis of two or more bands cannot be packed; a packed time axis claims that a byte lasts as long as one of its eight entries; without an axis (the default) every array with more than one axis is a ValueError.", "quantifier": "every array, axis and choice of dimensions", "why_tests_cant": "arrays are unbounded", "anchors": ["zounds/core/axis.py: ArrayWithUnits.packbits"]}
{"id": "C314", "title": "Resynthesis from the frequency-adaptive graph removes every window's mean and fastest oscillation", "statement": "For every half-lapped window size, every scale whose bands hold at least two coefficients each, and every sound in whatever chunks, FrequencyAdaptiveFFTSynthesizer(scale, samplerate).synthesize of the `freq_adaptive` feature of audiograph.frequency_adaptive is what FFTSynthesizer makes of the graph's spectra with each coefficient multiplied by the sum of the hanning weights the bands give it; the first (mean) and last (Nyquist) coefficients always get weight zero; when the other coefficients get weight one the sound that comes back is the original times the constant of C295 less, at each sample, the weighted means and alternating means of the windows it lies in, so a constant sound loses a positive amount in every window.", "quantifier": "all window sizes, sample rates, scales, sounds and ways of chunking them", "why_tests_cant": "The loss depends on how the weights of arbitrary bands add up on every coefficient and on all windows; a test compares a few sounds within a tolerance.", "anchors": ["zounds/basic/audiograph.py:92-124 frequency_adaptive", "zounds/spectral/spectral.py:157-216 FrequencyAdaptiveTransform", "zounds/synthesize/synthesize.py:303-340, 500-513 FrequencyAdaptiveFFTSynthesizer"]}
{"id": "C315", "title": "A stored array feature is read back whole, however it arrived", "statement": "For every ArrayWithUnits feature whose first axis is a TimeDimension and whose dimensions can be stored, and for every way of cutting its rows into the pieces that reach the encoder, ArrayWithUnitsDecoder reads an array with the dimensions of the first piece (the remaining axes unchanged, the time dimension now spanning all rows although only the first piece's size was written) and with exactly the rows of all pieces.  When the first axis is a FrequencyDimension, reading succeeds only if all pieces together have as many rows as the scale has bands; otherwise ValueError, so a second non-empty piece makes the stored feature unreadable.", "quantifier": "all arrays, dimensions, dtypes and ways of cutting a feature into pieces", "why_tests_cant": "Encoder, JSON, header, decoder and array constructor each see only part of the data; a test stores one array in one piece.", "anchors": ["zounds/persistence/arraywithunits.py:18-88 ArrayWithUnitsEncoder, ArrayWithUnitsDecoder", "zounds/persistence/dimension.py", "zounds/core/axis.py:44-63 ArrayWithUnits.__new__"]}
{"id": "C316", "title": "Stored audio and frequency-adaptive features are read back as what they were", "statement": "Audio at one of the library's rates (one or several channels) stored by an AudioSamplesFeature in any pieces is read back as AudioSamples with the same sample rate and all samples; an array over time at any other rate can be stored by such a feature but reading it raises ValueError.  The frames of a FrequencyAdaptive representation stored in any pieces are read back as the representation built from all frames, every band with its own coefficients.", "quantifier": "all audio, frequency-adaptive representations, scales and ways of cutting them into pieces", "why_tests_cant": "Must hold for every split of the stream and every scale; tests store short sounds in one piece.", "anchors": ["zounds/persistence/audiosamples.py:7-14 AudioSamplesDecoder", "zounds/persistence/frequencyadaptive.py:6-12 FrequencyAdaptiveDecoder", "zounds/spectral/frequencyadaptive.py:156-161"]}
{"id": "C317", "title": "Every endpoint answers its own method only", "statement": "In the training monitor, whatever cookies and form are sent, GET on /zounds/training and /zounds/graph (with or without a final slash) and on / is answered by the training socket, the graph and the front page, POST on /zounds/repl by the interpreter, and any other method on them with 405; so nothing but a POST to the interpreter's url runs code, and a POST that runs any handler at all went to the interpreter or the login page.", "quantifier": "every request method, path, cookie and form of the training monitor's route table", "why_tests_cant": "a test tries some urls and methods; the claim is about all paths, including those that only look like an endpoint", "anchors": ["zounds/ui/api.py:custom_routes", "zounds/ui/training_monitor.py:custom_routes", "zounds/ui/baseapp.py:base_routes"]}
{"id": "C318", "title": "Array methods keep audio audio", "statement": "samples.sum(axis=1) of audio with channels is mono audio at the same rate, each sample the sum over the channels (with keepdims: audio with one channel); zeros_like() is audio of the same rate, length and channels; AudioSamples.concat joins pieces of the same rate and number of channels into audio, in order, and refuses others with ValueError. The sum over time leaves one number per channel without units; the sum of everything is a number. Found otherwise: with axis=-1 or axis=(1,), and for max, the numbers are the same but the result is a plain array; mono audio refuses sum(axis=0) and max(axis=0) with AttributeError; samples.dot(x) is a ValueError for every x; the transpose of mono audio is not audio.", "quantifier": "every piece of audio (any rate, length, number of channels, values), every axis argument, every list of pieces and every right operand of dot", "why_tests_cant": "tests sum one stereo array along axis=1; none uses negative axes, dot or pieces that do not fit", "anchors": ["zounds/timeseries/audiosamples.py:AudioSamples.sum", "zounds/timeseries/audiosamples.py:AudioSamples.from_example", "zounds/core/axis.py:ArrayWithUnits.dot", "zounds/core/axis.py:ArrayWithUnits.concat", "zounds/core/axis.py:ArrayWithUnits.zeros_like"]}
{"id": "C319", "title": "Counts of samples are exact in double precision up to two and a half hours", "statement": "With quotients of durations rounded to double precision as numpy computes them: the number of samples of a duration (AudioSamples.silence, ChunkSizeBytes, ...) is the exact quotient cut off for all durations below 2^53 ps (2.5 hours); samples_per_second is exact for every sample rate; the step and window of SampleRate.discrete_samples and the window, hop and length of the synthesizers' overlap-add are exact below 2^52 ps. The bound is needed: a picosecond less than 400 million samples at 44.1 kHz counts as 400 million.", "quantifier": "every duration below the bound and every positive frequency", "why_tests_cant": "a rounding error that matters may occur for one duration in 10^15", "anchors": ["zounds/timeseries/samplerate.py:SampleRate.samples_per_second", "zounds/timeseries/samplerate.py:SampleRate.discrete_samples", "zounds/timeseries/audiosamples.py:AudioSamples.silence", "zounds/soundfile/chunksize.py:ChunkSizeBytes", "zounds/synthesize/synthesize.py:ShortTimeTransformSynthesizer._overlap_add"]}
{"id": "C320", "title": "Slicing by time picks the right samples in double precision", "statement": "With quotients rounded to double precision, arr[TimeSlice(start, duration)] keeps, in order, every sample that reaches past the start and begins before the end by more than 1/200 of a period, and no other, except that within 1.3 ps of that limit it may go either way (slices ending within 75 minutes). Slices ending within 17 seconds give exactly what exact arithmetic gives unless they end exactly 1/200 of a period into a sample; slices without an end always do. Refuted at that point: at 16 kHz a slice ending 1/200 of a period after eight samples has nine samples, one ending as much after one sample has one.", "quantifier": "every array, time dimension, start and duration within the bounds", "why_tests_cant": "the exceptions are single picoseconds", "anchors": ["zounds/timeseries/timeseries.py:TimeDimension.integer_based_slice", "zounds/core/axis.py:ArrayWithUnits.__getitem__"]}
{"id": "C321", "title": "The sample rate the DCT and DCTIV nodes find", "statement": "On windows of any size of audio at 96, 48, 44.1, 22.05 or 11.025 kHz the DCT and DCTIV nodes find the audio's sample rate and put every window's coefficients on a linear scale from 0 to half of it. Refuted at 16 kHz: int(windowsize / duration_in_seconds) is 16000 or, for infinitely many window sizes (17, 34, 68, ...; 21, 42, 84, ...), 15999, and then both nodes raise ValueError; windows of 1, 2, 4, ... samples and of 25, 50, ..., 400, ... work, and whether a size works does not change when it is doubled.", "quantifier": "every supported rate, window size and every batch of windows", "why_tests_cant": "depends on rounding errors; about one in eight window sizes at 16 kHz fails, no power of two does", "anchors": ["zounds/spectral/spectral.py:DCT._process", "zounds/spectral/spectral.py:DCTIV._process", "zounds/timeseries/timeseries.py:TimeDimension.duration_in_seconds"]}
{"id": "C322", "title": "Noise and ticks are at most one sample off", "statement": "With double precision, noise and ticks have the right number of samples for whole seconds, at most one more or less for other durations, and for whole milliseconds the right number or, where the duration is a whole number of samples, possibly one too few. One tick has the right length; ticks whose period divides a second are the right number of samples apart, others at most one off. Refuted: 350 ms of noise at 44.1 kHz are 15434 samples instead of 15435, 9 ms at 48 kHz 431 instead of 432; ticks every 30 ms at 44.1 kHz come every 1322 samples instead of 1323, so they run 333 samples early after ten seconds.", "quantifier": "every sample rate, duration and tick frequency within the bounds", "why_tests_cant": "rounding errors of single durations", "anchors": ["zounds/synthesize/synthesize.py:NoiseSynthesizer.synthesize", "zounds/synthesize/synthesize.py:TickSynthesizer.synthesize"]}
{"id": "C323", "title": "Sines are at most one sample off, and may not mix", "statement": "With double precision a sine has at most one sample more or less than covers the duration, and as many as its octaves; mixing gives a sound exactly if all frequencies get as many samples. Refuted: one second of 9, 18, 36, ... Hz at 16 kHz is 16001 samples, of 55, 110, 220, 440, ... Hz 16000, so SineSynthesizer raises when asked to mix one of the former with one of the latter; five seconds of 15, 30, ... Hz at 44.1 kHz are 220501 samples.", "quantifier": "every sample rate, duration and list of frequencies within the bounds", "why_tests_cant": "rounding errors of single frequencies; tests use 440 Hz", "anchors": ["zounds/synthesize/synthesize.py:SineSynthesizer.synthesize"]}
{"id": "C324", "title": "A request for seconds, in double precision", "statement": "A range request `seconds=a-b` with 0 \u2264 a \u2264 b \u2264 4096 is answered, with every step computed in double precision, with status 206 and the frames from the one playing less than one picosecond away from a on, as many whole frames as fit into a stretch less than two picoseconds off b - a (and `seconds=a-` with everything from that frame on); the frame is the right one or a neighbour, and the right one unless a frame starts that close to a.  For whole seconds and their halves, quarters, ... 4096ths the answer is exactly that of exact arithmetic (C278).  Of two consecutive requests at most one frame is sent twice and at most two are skipped.  Refuted: that the answer is always the exact one (`seconds=2.01-3.01` of a 16 kHz sound starts and ends one frame early), and that consecutive requests never repeat a frame (`seconds=3.03-8.03` and `seconds=8.03-` share frame 128479).", "quantifier": "every audio rate, every sound, every pair of decimal numbers up to 4096", "why_tests_cant": "a unit test tries a few pairs of numbers, and those a tester would choose (whole seconds, halves) are the ones that come out right", "anchors": ["zounds/ui/contentrange.py: RangeRequest.time_slice", "zounds/soundfile/ogg_vorbis.py: OggVorbisWrapper.__getitem__", "zounds/ui/serializer.py: OggVorbisSerializer"]}
{"id": "C325", "title": "Resampling buffers in double precision", "statement": "From any of the six supported sample rates to any other, and for any number of samples below 2^33, the number of frames of the buffer the resampler hands to the library, computed in double precision, is the exact number of samples times the ratio of the rates, rounded to the nearest integer, halves to the even one \u2014 also where the exact value is a tie.", "quantifier": "all 36 pairs of rates, every number of samples below 2^33", "why_tests_cant": "ties occur only for particular numbers of samples and pairs of rates; in one of them (96 kHz to 16 kHz) the ratio is off by exactly the amount that could matter", "anchors": ["zounds/soundfile/resample.py: Resample.__init__, _output_buffer"]}
{"id": "C326", "title": "Sizes through a ratio, in double precision", "statement": "The number of rows a feature contributes to the reservoir of a sampler, and the number of samples an audio stream reads at a time, computed in double precision, are never more than exact arithmetic gives and at most one less, and one less only where the exact value is a whole number; the first is at least one, and all features together contribute at most the size of the reservoir and one row each; the second is at least one second's worth.  Refuted: that the first is always exact (one of 49 features of equal size contributes one row to a reservoir of 98, not two).", "quantifier": "every size of reservoir, feature, buffer (below 2^50), subtype, rate, number of channels", "why_tests_cant": "a unit test of one size cannot exclude that another is rounded across an integer", "anchors": ["zounds/learn/random_samples.py: InfiniteSampler._update_reservoir", "zounds/soundfile/byte_depth.py: chunk_size_samples"]}
{"id": "C327", "title": "The served page is the HTML file with its local scripts inlined", "statement": "Building a web application reads its HTML file and replaces every tag `<script src=\"/file\"></script>` by that file's text between `<script>` and `</script>`, leaving every other character untouched; it fails exactly when the page or one of its scripts cannot be read. This holds for every page whose script names contain no `<` and all scripts whose texts do not contain `<script`; a script that mentions the tag of a later script does not arrive as written, and a tag whose source is another host (`//host/x.js`) is taken for a local file.", "quantifier": "every directory, file system, page, set of scripts, placement and repetition of tags", "why_tests_cant": "Pages and scripts are arbitrary texts; the replacement is made tag by tag over the whole growing page, so whether an earlier script or the text around a tag is disturbed depends on every other script.", "anchors": ["zounds/ui/baseapp.py: BaseZoundsApp._get_html", "zounds/ui/baseapp.py: SCRIPT_TAG"]}
{"id": "C328", "title": "Arithmetic with Hertz is arithmetic with the frequencies", "statement": "What a program computes from numbers with Hertz(..), + and unary - is worth what it means, as a float and in its hz attribute. It can only fail with TypeError, and not if all its numbers are floats: float(Hertz(n)) and Hertz(Hertz(n)) are TypeErrors exactly if n is an integer. FrequencyBand.audible_range raises ValueError for rates below 42 samples per second; otherwise it is from 20 to half the rate rounded down, and float() of its ends is a TypeError.", "quantifier": "every expression over integers and floats of any depth; every sample rate", "why_tests_cant": "expressions of any depth", "anchors": ["zounds/spectral/frequencyscale.py: Hertz, FrequencyBand.audible_range"]}
{"id": "C329", "title": "Bark and Mel values are added as frequencies but compared as bare numbers", "statement": "float(b), Hertz(b), -b, b + x and Hertz(..) + b use the frequency that a Bark or Mel b stands for; b < x, b - x, b * x and number + b use the Bark or Mel number itself. So comparisons with frequencies come out as for the frequency b stands for if and only if that equals the number: for Bark only at zero, for Mel at zero and at exactly one other number (between 563 and 1127).", "quantifier": "every Bark and Mel number and every operand", "why_tests_cant": "all real numbers", "anchors": ["zounds/spectral/frequencyscale.py: Hertz, Bark, Mel"]}
{"id": "C330", "title": "Frequencies keep their unit through addition and negation only", "statement": "Hertz + x and -Hertz are Hertz; number + Hertz, differences and products are plain floats. scale[a:b] for Hertz 0 <= a < b is the scale cut to the band between a and b; if neither bound is of class Hertz and they are not both integers it is a TypeError. So scale[x - y:z - w] is a TypeError for frequencies x and z, whatever y and w.", "quantifier": "every scale with bands, all operands", "why_tests_cant": "all scales and bounds", "anchors": ["zounds/spectral/frequencyscale.py: Hertz, FrequencyScale.get_slice, FrequencyScale.__getitem__"]}
{"id": "C331", "title": "A frequency band equals every scale that spans it, but no scale equals a band", "statement": "Two bands are equal exactly if they start and stop at the same frequencies, and exactly then they are hashed from equal tuples. band == scale is True if and only if the scale spans from band.start_hz to band.stop_hz, while scale == band is False, or a TypeError for an ExplicitScale.", "quantifier": "all bands and scales", "why_tests_cant": "all bands and scales", "anchors": ["zounds/spectral/frequencyscale.py: FrequencyBand.__eq__, FrequencyBand.__hash__, FrequencyScale.__eq__, ExplicitScale.__eq__"]}
{"id": "C332", "title": "The quality factor of every kind of scale", "statement": "scale.Q lists for every band its centre over its bandwidth, which is at least one half exactly if the band does not reach below zero. On a LinearScale (two bands or more) it grows by exactly one from band to band, from 1/2 plus the start measured in bandwidths; on a GeometricScale it is 1/bandwidth_ratio throughout; on Bark and Mel scales over non-negative frequencies it grows strictly and stays below 250/27.", "quantifier": "every scale of any number of bands", "why_tests_cant": "unbounded numbers of bands, real arithmetic", "anchors": ["zounds/spectral/frequencyscale.py: FrequencyScale.Q, LinearScale, GeometricScale, BarkScale, MelScale"]}
{"id": "C333", "title": "Shifting the phases within a frequency band changes the coefficients of that band only", "statement": "phase_shift(coeffs, samplerate, time, frequency_band=b) of a spectrum (one frame or many, on any scale but chroma) multiplies exactly the coefficients whose bands touch b, in every frame, by exp(-2 pi i k s / n), k being their place in the whole spectrum of n coefficients and s the number of whole samples in the time, and leaves the others; without a band it does so with all of them. The result has the dimensions of the spectrum, and the spectrum itself is not changed. A band that touches nothing is a ValueError.", "quantifier": "all spectra (frames, scales with ordered bands that do not round to even numbers), bands, sample rates and times", "why_tests_cant": "selection by frequency, broadcasting and assignment through a view interact for every size and every place of the band; tests look at a whole spectrum", "anchors": ["zounds/spectral/functional.py: phase_shift", "zounds/core/axis.py: ArrayWithUnits.__setitem__"]}
{"id": "C334", "title": "phase_shift works along the last axis only", "statement": "Refuted: that phase_shift shifts along the axis it is given. Along the first of two axes it is a ValueError unless both axes have the same length or there is a single coefficient; with equal lengths every number is turned by the factor of its frame's number instead of its band's. An axis without frequencies is a ValueError, an axis that does not exist an IndexError.", "quantifier": "all spectra with the bands along the first of two axes, sample rates and times", "why_tests_cant": "the failure depends on the relation of the two lengths; square arrays fail silently", "anchors": ["zounds/spectral/functional.py: phase_shift"]}
{"id": "C335", "title": "BandLoss is zero exactly for signals that agree up to the largest factor", "statement": "For inputs and targets of n samples, positive factors up to one that make bands of at least one coefficient, and a weight that is not negative, BandLoss returns a number that is not negative, and zero exactly if each input contains the same amount of every cosine as its target up to the largest factor's share of the frequencies. So it tells all different signals apart exactly if 1 is among the factors.", "quantifier": "every batch, length, weight and list of factors", "why_tests_cant": "the claim compares all pairs of signals; a test cannot show that no two different signals have loss zero", "anchors": ["zounds/learn/loss.py: BandLoss", "zounds/learn/dct_transform.py: DctTransform.frequency_decomposition"]}
{"id": "C336", "title": "BandLoss ignores volume", "statement": "If every target is its input at another volume and no band of either has a norm below d, BandLoss is at most (1 + weight) times (10^-8 / d)^2.", "quantifier": "every batch, gain, length and list of factors", "why_tests_cant": "a bound for all signals", "anchors": ["zounds/learn/loss.py: BandLoss._transform", "zounds/learn/loss.py: BandLoss.forward"]}
{"id": "C337", "title": "dct_resample keeps the tones of a signal that starts with zero", "statement": "Every signal of n samples is a sum of cosines of 1/2, 3/2, ... half periods in exactly one way. DctTransform.dct_resample to m samples gives those below the new limit with sqrt(n/m) of their strength plus sqrt(n/m) times the n-th part of the first sample; it is the same sum of tones, by that factor louder, exactly if the first sample is zero.", "quantifier": "every signal and every two sizes", "why_tests_cant": "identities over all signals and sizes", "anchors": ["zounds/learn/dct_transform.py: DctTransform.dct_resample", "zounds/spectral/functional.py: dct_basis"]}
{"id": "C338", "title": "Cutting a frequency-adaptive array by frequency", "statement": "Cutting a frequency-adaptive array by a range of frequencies that is not one of its bands gives the coefficients of all bands that touch the range, band after band, on the scale made of exactly these bands (explicit and geometric scales; a linear scale if the bands are at least two); by one of its bands, exactly that band's coefficients on the scale of that band alone; by a range that touches no band, an IndexError. When a range touches a single band of a linear scale, that band's coefficients come out, but labelled with the whole scale and all its slices.", "quantifier": "every frequency-adaptive array on a scale with ordered bands and every range of frequencies", "why_tests_cant": "what is selected depends on the requested range relative to all bands and their sizes", "anchors": ["zounds/core/axis.py:ArrayWithUnits.__getitem__,_new_dims", "zounds/spectral/tfrepresentation.py:ExplicitFrequencyDimension.metaslice,integer_based_slice"]}
{"id": "C339", "title": "Cutting a cut frequency-adaptive array again", "statement": "The result of cutting a frequency-adaptive array keeps the column numbers of the uncut array in its frequency dimension: cutting it again, by one of its bands, takes the columns the band had in the uncut array, counted from the left of the result. That is the band's own coefficients if the first cut began with the first band. Otherwise, whatever the coefficients, the last band kept comes out with fewer coefficients than it has; and fa[:, b][:, b] drops from the coefficients of b as many as come before b in the whole array.", "quantifier": "every frequency-adaptive array on an explicit or geometric scale, every first and second cut", "why_tests_cant": "a test with the first bands passes; the error needs a cut that starts further up, in an array with arbitrary band sizes", "anchors": ["zounds/spectral/tfrepresentation.py:ExplicitFrequencyDimension.metaslice,integer_based_slice"]}
{"id": "C340", "title": "Cutting a frequency-adaptive array by position", "statement": "fa[:, i:j] keeps the coefficients number i to j-1 of a frequency-adaptive array and labels them with its bands number i to j-1. That holds for Python's slices in general, with bounds that are missing or counted from the end: the columns are that slice of every row, the bands that slice of the bands, each with the column numbers it had in the whole. If every band has at least one coefficient, the number of columns is that of the coefficients of these bands, for all i < j, exactly if every band has a single coefficient; then the columns are the bands' own.", "quantifier": "every frequency-adaptive array on an explicit or geometric scale, all i < j up to the number of bands", "why_tests_cant": "holds or fails for all positions and all band sizes, which cannot be listed", "anchors": ["zounds/spectral/tfrepresentation.py:ExplicitFrequencyDimension.metaslice", "zounds/core/axis.py:ArrayWithUnits.__getitem__"]}
{"id": "C341", "title": "The REPL page's history and output", "statement": "On the REPL page, for every history of typing, arrow keys, enter and answers in which each request is answered at most once, in any order: the command sent by enter is the text of the field at that moment; the history is the non-empty commands answered so far in order of their answers; the output is, per answer, the command it belongs to followed by its result or error (nothing if the connection was lost); k times up and j times down show the (min(k, length) - j)-th newest entry, the empty line at 0. The history is in order of entry if the answers come in order; refuted otherwise (crossed answers reverse it), and an answer sends a reader who is browsing back to the newest entry.", "quantifier": "every sequence of keys and answers, every delay and order of answers", "why_tests_cant": "answers arrive asynchronously: every interleaving of keys and answers counts", "anchors": ["zounds/ui/zounds.js: Console, History", "zounds/ui/client.js: ZoundsClient"]}
{"id": "C342", "title": "Search results one at a time", "statement": "On the REPL page with n > 0 search results, after any presses of next and previous, interleaved in any way with the arrival of sounds and images, the result on display is number (#next - #previous) mod n and space plays its sound, or nothing if that has not arrived. The images on display are those of the results whose data arrive after the last move, in order, and a click on one plays its own sound; so only the current image is shown if each result arrives before the next move - refuted otherwise: a late result is added to the current one's image. No results: a TypeError, and the keys do nothing.", "quantifier": "every number of results, every sequence of moves and arrivals", "why_tests_cant": "loading is asynchronous and moves are unbounded", "anchors": ["zounds/ui/zounds.js: SearchResults", "zounds/ui/audioslice.js: AudioSlice"]}
{"id": "C343", "title": "The keys act on what is on display", "statement": "After any sequence of features (images, sounds, search results, others) and of answers to the requests for results, the space key reaches exactly the sounds and results on display and the arrow keys exactly the results on display, each once. On display is, since the last feature, its image or sound and every non-empty set of results that has arrived since. So at most one thing plays if results never arrive after a later feature; refuted otherwise: results that come after a sound was asked for play together with it.", "quantifier": "every sequence of features and answers", "why_tests_cant": "subscriptions are removed by event name, views replaced asynchronously: the invariant must hold in every reachable state", "anchors": ["zounds/ui/zounds.js: MessageBus, BasicAudio, SearchResults, Visualization"]}
{"id": "C344", "title": "The JavaScript client's methods", "statement": "A ZoundsClient has a method for every own key of its endpoints; each method calls the endpoint of the key enumerated last. So with one endpoint (as on both pages) the method calls it, and with several exactly the last enumerated one is right (refuted for the others).", "quantifier": "every list of endpoints", "why_tests_cant": "all endpoint objects", "anchors": ["zounds/ui/client.js: ZoundsClient"]}
{"id": "C345", "title": "Playing a search result", "statement": "For a result start ps into a sound and duration ps long (start 0 or at least a microsecond, end within the first hour), the page's request computed in double precision in Python, JavaScript and Python again is answered with the frames from one playing less than 2 ps away from start on, as many as fit into a stretch less than 4 ps off duration; if there is no such frame the request fails. Assumes that number texts read back as the doubles written. Refuted for starts between 0 and a microsecond: JavaScript writes 5e-7, the server takes the dash for the range's and fails with ValueError.", "quantifier": "every start, duration, rate and sound", "why_tests_cant": "rounding in three places for every time", "anchors": ["zounds/ui/audioslice.js: AudioSlice", "zounds/ui/client.js: fetchBinary", "zounds/ui/serializer.py: AudioSliceSerializer._seconds", "zounds/ui/contentrange.py: RangeRequest"]}
{"id": "C346", "title": "Links to searches", "statement": "For every non-empty ASCII query, opening the address the search page makes for it sends a request from which the server recovers exactly the query: encodeURIComponent, the browser's address, the page's own parsing, jQuery's encoding, tornado's decoding and unquote compose to the identity. Hence every query of at least one byte, encoded in base64, is searched for byte for byte. Without a query, or with an empty one, the search is random. Refuted for other clients: a query sent encoded once is decoded twice.", "quantifier": "every query", "why_tests_cant": "all byte strings", "anchors": ["zounds/ui/search.js: showResults", "zounds/ui/search.py: SearchHandler.get"]}
{"id": "C347", "title": "The search page's address and its results", "statement": "For a reader of the search page who waits for each answer and never goes back to the entry the page was opened at, the results shown are always those of the query in the address, after any random searches and moves back and forth. Refuted: going back to the first entry leaves the later results under its address; and with overlapping requests the address can be that of one search and the results those of another.", "quantifier": "every session", "why_tests_cant": "sessions of any length, every order of answers", "anchors": ["zounds/ui/search.js"]}
{"id": "C348", "title": "The code of a stretch of sound", "statement": "Frames encoded by k-means and pooled by Max over windows of w frames every s (examples/timbre.py): however the stream is cut into chunks, the code of window i has a one at j exactly if codeword j is the one nearest (the first of those equally near) to some frame from i*s to i*s + w - 1, else a zero; every full window has a code; and two windows holding the same frames, in any order and number, have the same code. Pooling a slice's codes (examples/segmentsearch.py) gives the same for its frames, and a ValueError for no frames. Refuted: that every code belongs to some frames (a stream that ends on an empty chunk has a further code of zeros only).", "quantifier": "every codebook, every stream of frames and every way it arrives in chunks, every window size and step", "why_tests_cant": "all streams and all cuts of them into chunks", "anchors": ["examples/timbre.py", "examples/segmentsearch.py", "zounds/learn/learn.py:KMeans", "zounds/basic/basic.py:Max,Pooled"]}
{"id": "C349", "title": "What an index's distance between stretches means", "statement": "The distance a Hamming index sees between the codes of two windows of frames is the number of codewords that are nearest to a frame of one window but to none of the other. The codes are as long as the codebook, rounded up to bytes.", "quantifier": "every codebook, every two streams and windows of them", "why_tests_cant": "the packed bits must be right for every codebook size and every set of codewords", "anchors": ["examples/timbre.py", "zounds/learn/learn.py:KMeans", "zounds/basic/basic.py:Max", "zounds/index/index.py:HammingIndex.encode_query"]}
{"id": "C350", "title": "Searching for similar stretches of sound", "statement": "In a Hamming index of such codes, whatever indexing and searching came before, searching with the code of a window for n results (fewer than are indexed) returns document and time of n indexed windows, each with at most as many codewords in only one of it and the query as every window not returned; in ascending order of that number if sorting is asked for.", "quantifier": "every history of the index, every codebook, streams, windows and query", "why_tests_cant": "every history and every set of stored codes", "anchors": ["examples/timbre.py", "zounds/index/index.py:HammingIndex", "zounds/index/hamming_db.py:HammingDatabase"]}
{"id": "C351", "title": "Codes and volume", "statement": "With UnitNorm before the codebook, the codes of a stream do not change when frames are made louder or quieter, each by a positive factor of its own, as long as no frame is silent. Refuted without UnitNorm: a frame ten times as loud may be nearest to another codeword. Refuted for silence: the code of an all-zero frame after UnitNorm can be that of any codeword, depending on what is in uninitialised memory.", "quantifier": "every stream, codebook and positive factors", "why_tests_cant": "for all factors and frames", "anchors": ["examples/timbre.py", "zounds/learn/functional.py:example_wise_unit_norm", "zounds/learn/preprocess.py:UnitNorm"]}
{"id": "C352", "title": "Packed and unpacked hashes", "statement": "SimHash's bits can be packed exactly if they fill, rounded up to bytes, whole 64-bit words (ValueError otherwise); then the packed hash is encoded for an index as the same bytes as the unpacked one.", "quantifier": "every list of bits", "why_tests_cant": "all lengths and bit patterns", "anchors": ["zounds/learn/preprocess.py:SimHash", "zounds/index/index.py:HammingIndex.encode_query"]}
{"id": "C353", "title": "Distances and searches by SimHash", "statement": "For examples of the planes' size, SimHash has a result exactly if it is not asked to pack or the number of planes can be packed. The distance an index sees between two hashes, packed or not, is the number of hyperplanes with exactly one of the two examples strictly on the positive side; and a search with the hash of an example for n results (fewer than are indexed) returns n examples separated from it by the fewest hyperplanes, in that order if asked.", "quantifier": "every set of hyperplanes, all examples, every history of the index", "why_tests_cant": "all real vectors and all histories", "anchors": ["zounds/learn/preprocess.py:SimHash", "zounds/learn/functional.py:simhash", "zounds/index/index.py:HammingIndex"]}
{"id": "C354", "title": "A learned encoder's full pass", "statement": "pipeline.transform(frames).inverse_transform() for a pipeline of UnitNorm and KMeans gives, for every frame, the codeword nearest to the frame's shape (the frame divided by its Euclidean length; the first of those equally near) times the frame's length, and silence for a silent frame, whatever is in uninitialised memory. With Log in front, the same holds of the logarithms (log_modulus) of frame and result. No frames, frames of another size or an empty codebook are a ValueError.", "quantifier": "every codebook, every batch of frames, every content of memory", "why_tests_cant": "all real frames and codebooks", "anchors": ["examples/mdct_synth.py", "zounds/learn/learn.py:KMeans", "zounds/learn/preprocess.py:UnitNorm,Pipeline,PipelineResult", "zounds/learn/functional.py:example_wise_unit_norm"]}
{"id": "C355", "title": "The error of a full pass", "statement": "What a full pass (UnitNorm, KMeans) makes of a frame is nearest to the frame among all codewords played at the frame's loudness, and its distance from the frame is the loudness times the distance between the frame's shape and the codeword.", "quantifier": "every codebook and frame", "why_tests_cant": "all real frames", "anchors": ["examples/mdct_synth.py", "zounds/learn/learn.py:KMeans", "zounds/learn/preprocess.py:UnitNorm,Pipeline,PipelineResult", "zounds/learn/functional.py:example_wise_unit_norm"]}
{"id": "C356", "title": "A full pass makes sound quieter", "statement": "The squared length of a codeword that is the mean of frames of length one is one minus the mean of their squared distances from it. So a frame never comes back from a full pass louder than it was, its squared loudness is multiplied by that number, and it is as loud as before only if it was silent or all frames of its codeword are the same.", "quantifier": "every set of clusters and every frame", "why_tests_cant": "an inequality over all finite families of real vectors", "anchors": ["examples/mdct_synth.py", "zounds/learn/learn.py:KMeans", "zounds/learn/preprocess.py:UnitNorm,Pipeline,PipelineResult", "zounds/learn/functional.py:example_wise_unit_norm"]}
{"id": "C357", "title": "A second pass", "statement": "With codewords of length one a second full pass changes nothing. Refuted in general: with a codeword shorter than one every pass makes a frame quieter still.", "quantifier": "every codebook of unit codewords and every batch", "why_tests_cant": "all inputs", "anchors": ["examples/mdct_synth.py", "zounds/learn/learn.py:KMeans", "zounds/learn/preprocess.py:UnitNorm,Pipeline,PipelineResult", "zounds/learn/functional.py:example_wise_unit_norm"]}
{"id": "C358", "title": "Volume and the full pass", "statement": "Making the frames louder or quieter, each by a positive factor of its own, does exactly the same to what comes back from a full pass of UnitNorm and KMeans. Refuted with Log in front: a frame five times as loud comes back three times as loud.", "quantifier": "every codebook, batch and list of positive factors", "why_tests_cant": "all real frames and factors", "anchors": ["examples/mdct_synth.py", "zounds/learn/learn.py:KMeans", "zounds/learn/preprocess.py:UnitNorm,Pipeline,PipelineResult", "zounds/learn/functional.py:example_wise_unit_norm"]}
{"id": "C359", "title": "Filtering by copying a band into silence", "statement": "filtered = x.zeros_like(); filtered[:, band] = x[:, band] (README, examples/demo.py) gives an array of x's shape and dimensions whose columns are x's where the column's frequency band touches the band and zero elsewhere; x and everything else in memory is untouched. A slice of frequencies filters as the band it stands for. A band that touches no column is a ValueError, a band that touches at least one works, on linear, geometric and explicit scales.", "quantifier": "every spectrum of any size, every band, any other contents of memory", "why_tests_cant": "all sizes and all bands", "anchors": ["README.md", "examples/demo.py", "zounds/core/axis.py:ArrayWithUnits.__getitem__,ArrayWithUnits.__setitem__,ArrayWithUnits.zeros_like", "zounds/spectral/frequencydimension.py:FrequencyDimension", "zounds/spectral/frequencyscale.py:FrequencyScale.get_slice"]}
{"id": "C360", "title": "Splitting a spectrum in two", "statement": "Refuted: filtering a spectrum up to a frequency and from that frequency on gives two arrays that add up to the spectrum. Every column comes back once except one, the column the frequency falls into (the lower one, when the frequency lies between two columns): it is in both halves and is counted twice, for every frequency inside the spectrum.", "quantifier": "every linear spectrum and every frequency inside it", "why_tests_cant": "all real frequencies", "anchors": ["README.md", "examples/demo.py", "zounds/core/axis.py:ArrayWithUnits.__getitem__,ArrayWithUnits.__setitem__,ArrayWithUnits.zeros_like", "zounds/spectral/frequencydimension.py:FrequencyDimension", "zounds/spectral/frequencyscale.py:FrequencyScale.get_slice"]}
{"id": "C361", "title": "The synthesizers are linear", "statement": "Synthesizing c times one set of coefficients plus another, of the same sizes and time dimension, gives sample by sample c times the one sound plus the other; either all three fail with the same error or none. So the sounds of the two halves of a spectrum split at a frequency add up to the sound of the whole plus the sound of one column.", "quantifier": "every two sets of coefficients of equal sizes, every time dimension, every factor", "why_tests_cant": "all real coefficients and sizes", "anchors": ["README.md", "examples/demo.py", "zounds/core/axis.py:ArrayWithUnits.__getitem__,ArrayWithUnits.__setitem__,ArrayWithUnits.zeros_like", "zounds/spectral/frequencydimension.py:FrequencyDimension", "zounds/spectral/frequencyscale.py:FrequencyScale.get_slice", "zounds/synthesize/synthesize.py:MDCTSynthesizer,FFTSynthesizer,DCTSynthesizer,DCTIVSynthesizer"]}
{"id": "C362", "title": "The DCT keeps the energy of a window", "statement": "The DCT node's coefficients of any window have the same sum of squares as the window; so has the inverse transform of any coefficients.", "quantifier": "every window of any size", "why_tests_cant": "all real samples and all sizes", "anchors": ["zounds/spectral/functional.py:fft,stft,mdct", "zounds/spectral/spectral.py:FFT,DCT,MDCT,DCTIV", "zounds/spectral/sliding_window.py:SlidingWindow,OggVorbisWindowingFunc"]}
{"id": "C363", "title": "The FFT keeps the energy of a window", "statement": "For a window of any even number of samples, the squared magnitudes of the FFT node's coefficients, all but the first and the last counted twice, sum to the sum of the squares of the samples.", "quantifier": "every window of any even size", "why_tests_cant": "all real samples and all sizes", "anchors": ["zounds/spectral/functional.py:fft,stft,mdct", "zounds/spectral/spectral.py:FFT,DCT,MDCT,DCTIV", "zounds/spectral/sliding_window.py:SlidingWindow,OggVorbisWindowingFunc"]}
{"id": "C364", "title": "The coefficients of a sound have its energy", "statement": "Cut into half-lapped windows weighted by the ogg vorbis window, the MDCT, FFT and DCT coefficients of a sound have together 1 / oggMax^2 times its energy (a factor a little over one that depends on the window size alone): never more, and never less than that factor times the energy without the first and the last half window; exactly that if the sound is silent in its first and last half window.", "quantifier": "every sound of any length, every window size", "why_tests_cant": "all real samples and sizes", "anchors": ["zounds/spectral/functional.py:fft,stft,mdct", "zounds/spectral/spectral.py:FFT,DCT,MDCT,DCTIV", "zounds/spectral/sliding_window.py:SlidingWindow,OggVorbisWindowingFunc"]}
{"id": "C365", "title": "Analysis is linear", "statement": "What comes out of a SlidingWindow node (any window, hop, windowing function and padding) followed by an FFT, MDCT, DCT or DCT-IV node for c times one sound plus another that arrive in chunks of the same sizes is c times the coefficients of the one plus those of the other, frame by frame; either all three fail with the same error or none.", "quantifier": "every two sounds in chunks of equal sizes, every factor, window size, hop and windowing function", "why_tests_cant": "all real samples, sizes and chunkings", "anchors": ["zounds/spectral/functional.py:fft,stft,mdct", "zounds/spectral/spectral.py:FFT,DCT,MDCT,DCTIV", "zounds/spectral/sliding_window.py:SlidingWindow,OggVorbisWindowingFunc"]}
{"id": "C366", "title": "A delayed sound has delayed features", "statement": "With any k hops of samples in front of a sound, frame i + k of its stft is frame i of the stft of the sound alone, and a sound longer than a window has exactly k frames more. The same holds of the frames of a graph's fft feature, however the two sounds arrive in chunks, for at least all frames that lie within the sound.", "quantifier": "every sound, every number of hops, every window size and hop, every chunking", "why_tests_cant": "all sounds and chunkings", "anchors": ["zounds/spectral/functional.py:fft,stft,mdct", "zounds/spectral/spectral.py:FFT,DCT,MDCT,DCTIV", "zounds/spectral/sliding_window.py:SlidingWindow,OggVorbisWindowingFunc"]}
{"id": "C367", "title": "stft keeps the energy of a sound", "statement": "stft of a sound longer than a window, in half-lapped windows with the ogg vorbis window, has the energy of the sound times 1 / oggMax^2: at most that, at least what is left of it without the first half window and the samples after the last whole hop, and exactly that if these are silent.", "quantifier": "every sound longer than a window, every hop", "why_tests_cant": "all real samples and sizes", "anchors": ["zounds/spectral/functional.py:fft,stft,mdct", "zounds/spectral/spectral.py:FFT,DCT,MDCT,DCTIV", "zounds/spectral/sliding_window.py:SlidingWindow,OggVorbisWindowingFunc"]}
{"id": "C368", "title": "MDCT coefficients come back from the sound made of them", "statement": "For any frames of `m` MDCT coefficients, at least one, `MDCTSynthesizer` makes a sound of them, and cutting that sound into half-lapped windows of `2 m` samples with the ogg vorbis window and taking the MDCT of each gives exactly the coefficients the sound was made of, in every frame, the first and the last included, all scaled by the one factor `1 / oggMax\u00b2` of the window: the MDCT representation has no redundancy, and every set of coefficients is that of a sound.", "quantifier": "Every number of frames, every number of coefficients per frame and all their values.", "why_tests_cant": "It is a statement about all coefficient values and sizes, and rests on the aliasing of neighbouring windows cancelling for each of them.", "anchors": ["zounds/spectral/functional.py:mdct,imdct", "zounds/spectral/spectral.py:MDCT", "zounds/synthesize/synthesize.py:MDCTSynthesizer"]}
{"id": "C369", "title": "Errors in MDCT coefficients are errors of the sound", "statement": "The energy of the sound `MDCTSynthesizer` makes is exactly the energy of its coefficients times `1 / oggMax\u00b2`, and the energy of the difference of the sounds of two sets of coefficients of the same shape is exactly the energy of the difference of the coefficients times the same factor: quantizing, thresholding or predicting coefficients with some squared error makes just that squared error in the sound.", "quantifier": "Every two sets of coefficients of any number of frames and coefficients per frame.", "why_tests_cant": "It is an identity over all pairs of coefficient arrays; a test sees some pairs.", "anchors": ["zounds/synthesize/synthesize.py:MDCTSynthesizer"]}
{"id": "C370", "title": "FFT and DCT spectra: no more energy in the sound than in the spectra", "statement": "The sound `FFTSynthesizer` makes of any frames of complex coefficients has at most the energy of the spectra (all but the first and the last coefficient counted twice) times `1 / oggMax\u00b2`, and that of `DCTSynthesizer` with the ogg vorbis window at most the energy of its coefficients times that factor. Other than with the MDCT the coefficients need not come back: for every window size there are two spectra, not silent, of which both synthesizers make exact silence.", "quantifier": "Every number of frames, every window size and all values.", "why_tests_cant": "The bound must hold for all coefficient values and sizes, and the counterexample exists for every size.", "anchors": ["zounds/synthesize/synthesize.py:FFTSynthesizer", "zounds/synthesize/synthesize.py:DCTSynthesizer"]}
{"id": "C371", "title": "What Seconds(x) and its siblings stand for", "statement": "`Hours(n)`, `Minutes(n)`, ..., `Picoseconds(n)` of a whole number are exactly that time, and agree with each other (`Hours(n) == Minutes(60 * n)` and so on down to picoseconds). Of any other finite number the fraction is dropped: the duration is the whole number of units next to it towards zero, and it is the time asked for just when the number is whole; refuted that `Seconds(x)` is `x` seconds: for any |x| < 1, half a second for instance, it is no time at all. NaN is a ValueError, an infinity an OverflowError.", "quantifier": "Every unit and every number.", "why_tests_cant": "It ranges over all numbers and units.", "anchors": ["zounds/timeseries/duration.py:Hours,Minutes,Seconds,Milliseconds,Microseconds,Nanoseconds,Picoseconds"]}
{"id": "C372", "title": "The shuffled samples of a learning pipeline", "statement": "Over any stream of at least one chunk `ShuffledSamples(nsamples)` (the sampler of `learning_pipeline`) emits exactly one array, with the last chunk. It holds just those rows of the stream whose randomly drawn slot no later row drew, each once, in the order of the slots: as many as different slots were drawn, at most `nsamples`, always with the last row of the stream, and all rows just if no slot was drawn twice. Refuted: that a reservoir at least as large as the data keeps all of it; however large `nsamples` is, two rows may draw one slot.", "quantifier": "Every stream in any chunks, every size and all random draws.", "why_tests_cant": "It ranges over all streams and all outcomes of the random generator.", "anchors": ["zounds/learn/random_samples.py:ShuffledSamples,Reservoir", "zounds/learn/graph.py:learning_pipeline"]}
{"id": "C373", "title": "Early rows are less likely to be kept by ShuffledSamples", "statement": "Of the `n ^ m` equally likely ways to draw slots for the `m` rows of a stream, row `j` is among the shuffled samples in exactly `n ^ (j+1) * (n-1) ^ (m-1-j)`, that is with probability `(1 - 1/n) ^ (m-1-j)`: certain for the last row. Refuted: that the samples are a fair choice of the stream; with two slots or more every row is kept in strictly fewer cases than the next one.", "quantifier": "Every number of rows and slots, counted over all draws.", "why_tests_cant": "It is a count over all outcomes of the random generator for every size.", "anchors": ["zounds/learn/random_samples.py:ShuffledSamples,Reservoir"]}
{"id": "C374", "title": "What an InfiniteSampler yields", "statement": "Without threads, over documents which all have rows, `InfiniteSampler(nsamples)` never stops: after every pass over the documents it yields an array of at least one and at most `nsamples` rows, every one of them a row of a document, and never fewer rows than the pass before. Refuted: that a document without rows does no harm. If there is one among documents with rows it is a ValueError in the first pass and nothing is ever yielded; if no document has rows it is a ZeroDivisionError, and without documents a TypeError.", "quantifier": "all documents, all capacities, all random draws, any number of passes", "why_tests_cant": "the draws are random and the sampler runs for ever: tests look at one batch", "anchors": ["zounds/learn/random_samples.py InfiniteSampler._process", "zounds/learn/random_samples.py InfiniteSampler._update_reservoir"]}
{"id": "C375", "title": "Threads that fill one reservoir", "statement": "`InfiniteSampler` fills its reservoir from a pool of threads (`parallel=True`, the default). Once the reservoir has its array, or if one thread has made it before another looks for it, then whatever the order of the threads' steps and whenever the reservoir is read, all rows read are rows of documents. Refuted in general: if two threads of the first pass both find no array, the second makes a fresh one, the rows the first has added are lost, and rows of zeros which are in no document are yielded in their places. Whatever the order, nothing else than rows of documents and rows of zeros is ever yielded.", "quantifier": "all numbers of threads, rows and slots, all schedules", "why_tests_cant": "a race that needs two threads between the same two lines in the first pass", "anchors": ["zounds/learn/random_samples.py Reservoir._init_arr", "zounds/learn/random_samples.py Reservoir.add", "zounds/learn/random_samples.py InfiniteSampler._process"]}
{"id": "C376", "title": "Parts of an example in a multiplexed reservoir filled by threads", "statement": "`InfiniteSampler(multiplexed=True)` adds examples with several parts (say, sound and label) from a pool of threads. In whatever order the threads write, a slot which only one of them has drawn holds, once that thread is done, one example of that thread, all its parts from the same example. If the threads add one after the other, in any order, every slot holds a whole example. Refuted in general: two threads that have drawn the same slot can leave there one part of an example of the first and another part of an example of the second: an example that is in no document.", "quantifier": "all keys, capacities, numbers of threads and of examples, all draws of slots, all schedules", "why_tests_cant": "a race between the writes of two keys that leaves a plausible but wrong example, without an error", "anchors": ["zounds/learn/random_samples.py MultiplexedReservoir.add", "zounds/learn/random_samples.py InfiniteSampler._process"]}
{"id": "C377", "title": "Windows of an array share its memory", "statement": "`windowed(a, w, s)` (and so `sliding_window_with_leftovers` and the SlidingWindow node without a windowing function), for windows of at least two, hands out windows that share memory with each other: a number stored at place j of window i is read at every place j' of a window i' with i' s + j' = i s + j, and at no other place of a window; without padding also in the leftover, at its number k with n s + k = i s + j where n is the number of windows. If the array is contiguous and no zeros had to be put behind it, the windows are the array's own memory: the store changes number i s + j of the array and no other. Otherwise the windows are a copy, and no store in them changes the array. Making windows changes no number of the array.", "quantifier": "all arrays, window and step sizes, with and without padding, all places", "why_tests_cant": "whether memory is shared depends on sizes, contiguity and padding: a test sees one case", "anchors": ["zounds/nputil/npx.py windowed", "zounds/nputil/npx.py pad", "zounds/core/axis.py ArrayWithUnits.sliding_window_with_leftovers"]}
{"id": "C378", "title": "What becomes of logical_data when a Growable grows", "statement": "An array taken from `Growable.logical_data` reads the same for ever, whatever is appended to the `Growable` later and whether or not it has moved to more memory. A number stored through such an array reaches the `Growable` exactly if its physical size is the same as when the array was taken: then it is that row, otherwise the `Growable` stays as it is.", "quantifier": "all growable arrays, growth rates, histories of append and extend, all rows", "why_tests_cant": "needs the moment the memory is moved, which depends on the whole history of appends", "anchors": ["zounds/nputil/npx.py Growable.logical_data", "zounds/nputil/npx.py Growable.append", "zounds/nputil/npx.py Growable.extend"]}
{"id": "C379", "title": "Batches of an InfiniteSampler that are kept", "statement": "If the arrays yielded by an `InfiniteSampler` (without threads, over documents with rows) are kept, then after any number of passes each array that was yielded before the reservoir was full still reads what it read when it was yielded. Refuted for the others: every array yielded since the reservoir has been full is the reservoir's own array, and reads as the last one yielded.", "quantifier": "all documents, capacities, draws and numbers of passes", "why_tests_cant": "only visible if batches are kept across passes, and only once the reservoir is full", "anchors": ["zounds/learn/random_samples.py Reservoir.get", "zounds/learn/random_samples.py InfiniteSampler._process"]}
{"id": "C380", "title": "Windows of a stream share memory with samples that are kept", "statement": "The windows a SlidingWindow node without a windowing function hands on share memory with the samples it keeps for later windows: if a consumer stores a number at place j of window i of a batch, all windows handed on later, for any later chunks, are those of a stream which had that number at sample i s + j. The first chunk of the stream, if it is contiguous, is not copied: the store changes it as well. If windows do not overlap (s = w) no later window is changed.", "quantifier": "all arrays, window and step sizes, places, and all later chunks", "why_tests_cant": "only visible if a consumer changes a batch in place and the next chunk is then looked at", "anchors": ["zounds/spectral/sliding_window.py SlidingWindow._enqueue", "zounds/spectral/sliding_window.py SlidingWindow._dequeue", "zounds/core/axis.py ArrayWithUnits.sliding_window_with_leftovers"]}
{"id": "C381", "title": "Which arrays can be changed, and what changes with them", "statement": "An array feature read back from storage reads what was stored for ever, whatever is done with it and with arrays made from it: a store in it, or in any array made of it without copying (ArrayWithUnits(arr, dims), AudioSamples(arr, rate), slices, T, mono of one channel, stereo of two, windows, and so on, in any order and number), raises ValueError and changes nothing. A view reads, at any time, the elements it was made of as they are then. A store in any other array is not refused (IndexError outside of it), the array then reads the new number there, and only arrays that come from the same original without copying can read differently. `mono` of a sound of one channel, and `stereo` of one of two, is the sound itself, so a store in it changes the sound; otherwise it is an array of its own, and a store in it changes neither.", "quantifier": "all programs that read arrays from storage, make arrays, views and conversions of them and store numbers, in any order, with refused stores caught", "why_tests_cant": "whether two arrays share memory, and whether they can be changed, depends on the whole history of how they were made", "anchors": ["zounds/persistence/arraywithunits.py _np_from_buffer", "zounds/core/axis.py ArrayWithUnits.__new__", "zounds/timeseries/audiosamples.py AudioSamples.mono", "zounds/timeseries/audiosamples.py AudioSamples.stereo"]}
{"id": "C382", "title": "A tone is found in the band that contains its frequency", "statement": "The FFT of a window of n samples of a tone of k\u00b7s/n hertz (s the sampling rate, 2k \u2264 n), of any amplitude and phase, is zero everywhere but at coefficient k, where it is A\u221an/2\u00b7e^{i\u03c6} (A\u221an\u00b7cos \u03c6 at the two ends), and is labelled with the linear scale of n/2+1 bands from 0 to the Nyquist frequency of the rate. If the rate is even, the band of coefficient k is the only one that contains k\u00b7s/n (for k = n/2 it is the upper end of the last band). At 11025 samples per second, the only odd supported rate, the Nyquist frequency is rounded down and the last coefficients of even windows lie outside their bands: coefficient k is in its band exactly if k(n/2+s) < (s-1)n/2; with 512 samples, 251 to 256 are not. Slicing the coefficients of a tone by a band that contains its frequency keeps its coefficient; by one more than a bandwidth away keeps only zeros. The same for the cosine transform: a cosine of k\u00b7s/(2n) hertz gives coefficient k alone, and band k starts at it.", "quantifier": "all supported rates, window sizes, coefficients, amplitudes, phases and bands", "why_tests_cant": "the number of a coefficient, the bands of a scale and the search for bands are computed by three separate modules that must agree for all window sizes and frequencies", "anchors": ["zounds/spectral/functional.py fft", "zounds/spectral/frequencyscale.py LinearScale.from_sample_rate", "zounds/spectral/spectral.py DCT", "zounds/timeseries/samplerate.py SampleRate.nyquist"]}
{"id": "C383", "title": "Keeping a band of a spectrum keeps the tones in it", "statement": "README's recipe filtered = x.zeros_like(); filtered[:, band] = x[:, band], applied to the FFT of windows of any even size that are sums of tones (each of a whole number of periods per window, any amplitudes and phases), and followed by the inverse transform, gives at rates of an even number of samples per second exactly the windows of the tones whose frequencies are in the band, provided every other tone is at least one bandwidth of the scale outside it; at any rate, it gives the tones whose coefficient's band touches the band.", "quantifier": "all windows and numbers of windows, all sums of tones, all bands and memory layouts", "why_tests_cant": "it needs the transform, the labels of its coefficients, slicing by frequency, assignment and the inverse transform to agree, for all window sizes and all bands", "anchors": ["examples/demo.py", "zounds/spectral/functional.py fft", "zounds/core/axis.py ArrayWithUnits.__setitem__", "zounds/synthesize/synthesize.py FFTSynthesizer"]}
{"id": "C384", "title": "What is synthesized is found in the spectrum", "statement": "The spectrum (FFT, no window function) of any window of w samples of what SineSynthesizer makes of frequencies k\u00b7s/w (0 < k < w/2, s the sampling rate) has coefficient j equal to \u221aw/2 times the share of the frequencies that are j\u00b7s/w, turned by a phase that depends on where the window starts; so at rates of an even number of samples per second a coefficient is not zero exactly if the band it is labelled with contains one of the frequencies. A sine of half the rate is silence, and one between half the rate and all of it is found in the band of its mirror image s - f, not in one of its own.", "quantifier": "all supported rates, durations, lists of frequencies, window sizes and positions of windows", "why_tests_cant": "synthesis, cutting, the transform and the labels of its coefficients are separate modules that must agree for all of these", "anchors": ["zounds/synthesize/synthesize.py SineSynthesizer", "zounds/spectral/functional.py fft", "zounds/spectral/spectral.py FFT"]}
{"id": "C385", "title": "Padding a spectrum changes where one looks, not what one finds there", "statement": "With any padding_samples, coefficient j of the FFT of a window is the window's correlation with the complex wave of the frequency j\u00b7s/n (n the number of samples, padding included), divided by \u221an: so what two paddings of a window say about the same frequency is the same but for that factor; padding to c times the length keeps the unpadded coefficients, divided by \u221ac, at every c-th place; at rates of an even number of samples per second the frequency a coefficient stands for is in the band it is labelled with and in no other; and no coefficient is larger than the sum of the samples' sizes divided by \u221an.", "quantifier": "all windows, paddings, supported rates and coefficients", "why_tests_cant": "the padding enters the transform, the number of bands and their widths separately; that they agree is a statement about all of them", "anchors": ["zounds/spectral/functional.py fft", "zounds/spectral/spectral.py FFT", "zounds/spectral/frequencyscale.py LinearScale.from_sample_rate"]}
{"id": "C386", "title": "The spectrogram of a periodic sound stands still", "statement": "Windows of w samples, any number h of samples apart, of a sound that repeats itself every w samples have spectra (FFT, no window function) of the same magnitudes, and coefficient j has turned by j\u00b7h/w turns from the one to the other; with half-lapped windows the even coefficients stay and the odd ones change sign. Conversely, for even w, if the coefficients turn this way from every window to the one a sample later, the sound repeats itself every w samples. What SineSynthesizer makes of any frequencies k\u00b7s/w repeats itself that way.", "quantifier": "all supported rates, window sizes, sounds, hops and coefficients", "why_tests_cant": "the phases are what a phase vocoder rests on; that they advance exactly so is a statement about all sounds and hops", "anchors": ["zounds/spectral/functional.py fft", "zounds/spectral/spectral.py FFT", "zounds/synthesize/synthesize.py SineSynthesizer"]}
{"id": "C387", "title": "Stretching a sound keeps its pitch", "statement": "If a sound repeats itself every hop samples (hop the distance of the windows), time_stretch by any positive factor gives, up to the end of the analysis, at sample t the sound's sample at the same place in its period, times the sum of the squares of the coefficients of the windows over t; from the end of the first window on it repeats itself every hop samples, too. So what SineSynthesizer makes of any frequencies k\u00b7s/hop comes out as sines of the same frequencies, whatever the factor.", "quantifier": "all sounds of that period, factors, hops, even window sizes, windows and samples", "why_tests_cant": "that a phase vocoder changes the duration but not the pitch rests on accumulated phases over all frames", "anchors": ["zounds/spectral/functional.py time_stretch stft", "zounds/synthesize/synthesize.py SineSynthesizer"]}
{"id": "C388", "title": "apply_scale of a synthesized sine depends on where the window starts", "statement": "apply_scale, with a window of ones, of a window of w samples of what SineSynthesizer makes of k\u00b7s/w hertz (0 < k < w/2), starting at sample o, gives \u221aw/2\u00b7|sin(2\u03c0ko/w)| in every band of the new scale that touches the sine's band and zero in all others. Refuted: that bands holding a synthesized frequency are not silent: in half-lapped windows of any mix of such sines apply_scale gives zero in every band of every scale in every frame, although the spectra themselves are not zero at any of the frequencies.", "quantifier": "all supported rates, durations, even window sizes (for the refutation), lists of frequencies, scales, windows and numbers of frames", "why_tests_cant": "that a feature is silent for a whole sound is a statement about all its frames and all bands", "anchors": ["zounds/spectral/functional.py apply_scale fft", "zounds/spectral/frequencyscale.py FrequencyScale.apply", "zounds/synthesize/synthesize.py SineSynthesizer"]}
