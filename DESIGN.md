# Formal model of zounds in Lean 4 — design

## 1. Approach

`/verif/lean/Verif` is a shallow, executable model of zounds, function by function, with exceptions as values.

* `Verif/Model/*.lean` — the model. Every definition cites the file and lines in `/repo` it models and states its simplifications.
* `Verif/Lemmas/*.lean` — helper lemmas only.
* `Verif/Props/*.lean` — for each property a small, separate specification (plain-language definition that does not use
  the model's helpers), the property theorems, and beside each theorem an `example` meeting its hypotheses.
* A property that the code violates is handled as follows: the negation is proved with a concrete witness
  (theorem name contains `_fails` / `_refuted`), the property is restated as the exact condition under which the claim holds, and the
  strongest part of the original claim is kept as a theorem with the suffix `_partial`.

## 2. Modelling conventions

| Python / numpy | Lean |
|---|---|
| `np.timedelta64` (any unit) | `Int` picoseconds (exact; 64-bit overflow not modelled unless stated) |
| `timedelta / timedelta` (float64) | exact rational; `Model/Float64` recomputes the quotients with rounding and proves when that makes a difference (C319–C323) |
| array, axis 0 | `List` of rows |
| float samples | `Int`, `Rat`, or Mathlib `Real`, as stated per definition |
| raised exception | `Except` / `Option` value |
| random draw, network call, user callback, argpartition order | universally quantified parameter |
| featureflow `Node` protocol (not in this repository) | recorded assumption: for each incoming chunk `enqueue`, then `dequeue` (may raise `NotEnoughData`), then `process`; `_finalized` is true during the last chunk |
| LMDB | a finite map; transactions are atomic |

## 3. Trusted base

* Lean 4.33.0's kernel. No axioms are added. Every theorem depends on at most `propext`, `Classical.choice` and `Quot.sound`
  (vcheck replays all modules and lists the axioms); no `native_decide`, no `bv_decide`.  `AXIOMS.md` lists, for every theorem of
  MANIFEST.json, exactly which of the three it depends on.
* Faithfulness of my reading of `/repo` (the code is not run).
* The conventions of section 2, and the following facts about things outside the repository, each an explicit parameter, a
  hypothesis of the theorems that need it, or a definition in the model whose comment says so:

| outside the repository | what is assumed |
|---|---|
| numpy `argpartition` / `argsort` | any result that is a legal partition / sort (hypothesis `Legal`) |
| numpy indexing, strides, broadcasting, `concatenate` of subclasses, `round` half to even | modelled by explicit definitions |
| numpy `where=` masked outputs | uninitialised memory is an arbitrary finite value (parameter `junk`) |
| `np.fft.*`, scipy `dct`/`idct`, `gmean` | the exact documented transforms over the reals / complex numbers |
| scipy `resample` | an arbitrary function whose output has the requested length |
| floats | an ordered field, the rationals or the reals; rounding, overflow, NaN and infinities are not modelled unless a theorem says so |
| `timedelta64 / timedelta64` | exact quotient; `int()` truncates |
| LMDB / py-lmdb | finite ordered map with atomic transactions; text keys are a TypeError on Python 3 |
| JSON | the identity on trees of dictionaries, lists, strings and numbers |
| base64, zlib-free framing, struct | explicit functions in the model; external codecs in C18 are lawful pairs (hypothesis) |
| document / database ids | fresh (hypothesis `FreshIds`) |
| tornado 4.5.3 | route matching, argument unquoting, `write`/`finish`, secure cookies that cannot be forged |
| libsndfile / pysoundfile | `seek` and `read` of frames; reads clip at the end of the file |
| featureflow `Node` protocol | section 2 |
| multiprocessing / thread pools | FIFO task queue, any interleaving of workers |
| recursion limit | a parameter |
| random draws | explicit arguments, so theorems hold for every draw |
| processes, crashes | any prefix of the sequence of atomic steps |

### What is modelled

| model file | source files cited |
|---|---|
| Adaptive | audiograph.py, functional.py, spectral.py, synthesize.py |
| Analysis | sliding_window.py, spectral.py |
| Archives | audio_metadata.py, filesystem.py, freesound.py, internetarchive.py, musicnet.py, nsynth.py, phatdrumloops.py, predownload.py |
| Arith | audiosamples.py, axis.py |
| Array | axis.py, dimensions.py, frequencyscale.py, tfrepresentation.py, timeseries.py |
| ArrayWrite | axis.py |
| Audio | audiosamples.py, axis.py, samplerate.py |
| AudioGraph | audiograph.py, frequencyscale.py, functional.py, sliding_window.py, spectral.py |
| AudioIndex | audiosamples.py, axis.py |
| AudioOps | audiosamples.py, axis.py, handy.py, timeseries.py |
| BandLoss | dct_transform.py, loss.py |
| Base |  |
| Bins | frequencyscale.py, functional.py, spectral.py |
| Blocks | util.py, wgan.py |
| Browser | search.py, serializer.py |
| BruteForce | brute_force.py, constantrate.py, index.py |
| Buffer | audiostream.py, byte_depth.py, chunksize.py |
| Codebook | learn.py, sklearn_preprocessor.py |
| Codes | index.py |
| ComplexDomain | axis.py, dimensions.py, frequencyscale.py, onset.py, timeseries.py |
| ContentRange | baseapp.py, contentrange.py, serializer.py |
| Conv | gated.py, loss.py, multiresolution.py, sinclayer.py, spectral.py, util.py |
| Correlogram | functional.py |
| Cut | axis.py, tfrepresentation.py |
| Datasets | cache.py, composite.py, freesound.py, util.py |
| DctAxis | dct_transform.py |
| Decompose | functional.py, synthesize.py |
| Descriptors | npx.py, spectral.py |
| Desk | arraywithunits.py, audiosamples.py, axis.py, npx.py |
| DimCodec | basedimension.py, dimension.py, dimensions.py, frequencydimension.py, frequencyscale.py, identitydimension.py, tfrepresentation.py, timedimension.py, timeseries.py, util.py |
| Duration | duration.py |
| Experiment | audiosamples.py, gan_experiment.py, wgan.py |
| FaTransform | spectral.py, synthesize.py |
| Filter | demo.py |
| FilterBanks | functional.py |
| Fit | axis.py, frequencyadaptive.py, learn.py, preprocess.py |
| Float64 | audiosamples.py, axis.py, chunksize.py, frequencyscale.py, functional.py, samplerate.py, spectral.py, synthesize.py, timeseries.py |
| FloatRange | baseapp.py, contentrange.py, ogg_vorbis.py, serializer.py |
| FloatSizes | byte_depth.py, random_samples.py, resample.py |
| Forward | functional.py, preprocess.py, pytorch_model.py, util.py |
| Frequency | axis.py, bisect.py, frequencyadaptive.py, frequencyscale.py, tfrepresentation.py |
| Growable | npx.py |
| HammingDb | hammingdb.py |
| HammingIndex | hammingdb.py, index.py |
| Hertz | frequencyscale.py, samplerate.py |
| Ingest | audio_metadata.py, ingest.py |
| Learn | embedding.py, supervised.py, trainer.py, util.py, wgan.py |
| Loss | dct_transform.py, loss.py, sample_embedding.py, util.py, wgan.py |
| Loudness | functional.py, loudness.py |
| Memory | axis.py, npx.py, random_samples.py, sliding_window.py |
| Merge | basic.py |
| MergeUnits | basic.py |
| MetaData | audio_metadata.py |
| Midi | midi.py |
| Monitor | baseapp.py, trainer.py, training_monitor.py |
| MuxThreads | random_samples.py |
| Nd | npx.py |
| OggVorbis | ogg_vorbis.py |
| Onset | axis.py, onset.py |
| Onsets | onset.py, segmentsearch.py, sliding_window.py, test_onset.py |
| Ops | graph.py, learn.py, preprocess.py, pytorch_model.py, util.py |
| PackBits | axis.py |
| Page | baseapp.py |
| Persist | arraywithunits.py, index.py, timeslice.py, util.py |
| PhaseBand | functional.py |
| Pipeline | functional.py, loudness.py, preprocess.py |
| PopCount | countbits.pyx, npx.py |
| Psychoacoustics | frequencyscale.py |
| Rainbow | functional.py |
| Rates | audiosamples.py, onset.py, samplerate.py, timeseries.py |
| Repl | api.py, audiosamples.py, baseapp.py, featureparser.py, frequencyadaptive.py, search.py, serializer.py |
| Resample | resample.py |
| Reservoir | axis.py, random_samples.py |
| Resynth | audiograph.py, sliding_window.py, spectral.py, synthesize.py, timeseries.py |
| Sampler | random_samples.py |
| ScaleApply | frequencyscale.py, spectral.py |
| ScaleDefaults | frequencyscale.py, functional.py, spectral.py |
| Search | hammingdb.py, index.py |
| Shuffled | graph.py, random_samples.py |
| Sinc | sinclayer.py |
| SineSpectrum | spectral.py |
| Sketch | basic.py, functional.py, index.py, learn.py, npx.py, preprocess.py, segmentsearch.py, sliding_window.py, timbre.py |
| SlidingWindow | axis.py, sliding_window.py |
| SoundNodes | audiograph.py, audiostream.py, byte_depth.py, ogg_vorbis.py |
| Spectral | dct_transform.py, functional.py, spectral.py, synthesize.py |
| Square | frequencyadaptive.py |
| Stft | audiograph.py, functional.py, npx.py, sliding_window.py, spectral.py |
| Stored | arraywithunits.py, audiosamples.py, axis.py, frequencyadaptive.py, tfrepresentation.py, timeseries.py |
| Stretch | functional.py |
| Synth | samplerate.py, synthesize.py |
| Threads | hammingdb.py, index.py |
| Time | axis.py, constantrate.py, duration.py, samplerate.py, timeseries.py |
| TimeRequest | baseapp.py, ogg_vorbis.py, serializer.py |
| ToneFilter | functional.py, spectral.py, synthesize.py |
| Tones | synthesize.py |
| Training | embedding.py, supervised.py, wgan.py |
| UnitNorm | npx.py |
| VariableRate | timeseries.py, variablerate.py |
| Vq | functional.py, learn.py, mdct_synth.py, preprocess.py |
| WebApp | api.py, baseapp.py, search.py, training_monitor.py |
| Weighting | tfrepresentation.py, weighting.py |
| WindowFunc | sliding_window.py |
| Windowed | npx.py |

Each definition's comment gives the exact lines.

### What is not modelled

* **Torch itself**: autograd, optimisers, weight initialisation and the device (`cuda`, `to`) are parameters of the training models (`Training`, `Experiment`,
  `Blocks`, `Loss`): a network is a function, a gradient and an optimiser step are functions of the weights. Layers are modelled only as far as `Conv`, `Sinc`,
  `DctAxis` and `Blocks` go; no theorem is about what a network learns or whether training converges.
* **Pictures and sound output**: matplotlib figures (`plot`, `graph_handler`), audio playback and the ogg, flac and mp3 codecs (files are lists of frames).
* **The page**: of the JavaScript, the console, the carousel, the result lists, the addresses and requests are modelled (`Browser`, `Page`); layout, drawing and
  the audio API are not.
* **Web sites behind data sets**: pages, archives and APIs are parameters; what zounds does with them is modelled (`Datasets`, `Archives`, `Ingest`).
* **Libraries**: numpy, scipy, scikit-learn, tornado, featureflow and LMDB by their documentation only, as in the table above.
* **Rounding**: samples are exact numbers; floating point is modelled only for times, sizes and ranges (`Float64`, `FloatRange`, `FloatSizes`, `Tones`).
  64-bit overflow, NaN and infinities only where a theorem says so.
* **Not at all**: command line parsers (`ui/cli.py`), the settings decorators of `util/persistence.py` and `learn/util.py` (they only assemble featureflow
  classes), `__init__` methods that store their arguments, accessors that return a field, `__repr__`/`__str__`, logging to the console, and
  most of the scripts in `examples/` (`Filter`, `Resynth` and `Vq` model parts of some).
* Garbage collection and object identity (except C39).

## 4. Plan per property

* **C01** windowed() without padding cuts the signal into exactly the right slices and loses nothing. `windowed`, `_wcut` over `List α`, `Nat` sizes. Closed form for window i and count; leftover = drop (n*s). Induction-free list/omega proofs.
* **C02** windowed() with padding uses every sample. `_wpad`, `pad`, `windowed dopad`. The docstring claim is false (w=5,s=4,len=14): refutation plus exact characterisation of when it holds (`len % s <= w - s` or w = s).
* **C03** Streaming a signal through SlidingWindow gives the same windows as windowing it whole. SlidingWindow as a state machine (cache) over a list of chunks, `Node` protocol assumed. Invariant by induction over chunks; final flush modelled; dependence of the final padded count on chunking refuted/partial.
* **C04** Slicing a time series by time selects exactly the samples that overlap the requested interval. `integer_based_slice` with exact rationals, round-half-even to 2 decimals. Membership iff overlap spec on intervals.
* **C05** Python slices of seconds mean the same as on a list, including negative ends. Python-slice branch of `integer_based_slice`, followed by numpy's slice semantics on a list. False when the resolved end is negative: refutation + partial.
* **C06** TimeSlice intersection, containment, order and equality agree with intervals. TimeSlice as (start, duration) Int. Interval spec on sets of instants. `&`'s start is always 0: refutation; rest proved.
* **C07** A sample rate survives conversion to picoseconds and back. freq = 10^12 / n, rate = 10^12 / freq; Nat division proof; lookup table modelled as a list.
* **C08** Sample-count arithmetic of windowing schemes is consistent. windowing_scheme, discrete_samples (round of exact rational), `*`.
* **C09** The time axis of windowed data covers exactly the samples in each window. modified_dimension over Int; interval union spec; composition.
* **C10** Growable behaves like an ordinary list under append and extend. Growable state machine with uninitialised cells as arbitrary values; refinement to a list, over all op sequences.
* **C11** Several HammingDb instances on one store agree with the store. Shared LMDB map + per-instance state; step relation; invariant by induction over all interleavings.
* **C12** HammingDb.search returns the n closest codes. argpartition as any legal partition (parameter); n-nearest spec.
* **C13** The bit counter counts bits, and packed Hamming distance is a metric. count_bits over BitVec 64, kernel-checked SWAR proof (no bv_decide).
* **C14** Binary codes round trip through the query encoding and their packed representation. packbits/unpackbits big-endian bits, base64 as explicit functions.
* **C15** HammingDb rejects codes and databases of the wrong size. open / append / search decision logic with Except; invariant over histories.
* **C16** A HammingIndex catches up with every document after a restart. event log + crash point model. False mid-document: refutation; partial at document boundaries.
* **C17** Time values survive persistence. uint64 little-endian bytes + base64 text + unit. Negative values refuted; non-negative proved.
* **C18** A persisted array decodes to the concatenation of the encoded chunks with the same dimensions. 4-byte LE length framing, JSON opaque but injective codec, rows as fixed-size byte blocks.
* **C19** Dimension metadata round trips for every dimension type. Sum type of dimensions and JSON-like dictionary; decoder dispatch modelled.
* **C20** Frequency slicing selects exactly the bands that touch the requested range. bisect_left on sorted lists over an ordered type; always_even adjustment with clamp: refuted/partial.
* **C21** A LinearScale tiles its band and slicing it keeps the same bands. bands over Rat; slicing preserves bands.
* **C22** Frequency bands are well formed and their algebra is that of intervals. FrequencyBand over Rat.
* **C23** Equality of explicit scales and dimensions is equality of their contents. ExplicitScale.__eq__ zip bug: refutation + partial; ExplicitFrequencyDimension dictionary lookup.
* **C24** A frequency-adaptive representation keeps every coefficient of every band. cumsum slices partition; round trip.
* **C25** Onset segmentation tiles the timeline and does not depend on chunking. peak picker state machine over chunks, onset predicate parameter.
* **C26** The reservoir sampler only ever holds items of the stream, and all of them until it is full. reservoir state machine with draws as parameters.
* **C27** Multiplexed reservoirs keep their keys aligned. reservoir + multiplexed state with failing operations; alignment invariant; refutation after failed add.
* **C28** Merge pairs the streams index by index whatever the arrival order. Merge FIFO caches; schedule = list of (source, rows).
* **C29** A learned pipeline's inverse undoes its forward transform. Pipeline as list of (f, g) pairs; each processor over Rat or Real.
* **C30** Requested HTTP ranges produce the right bytes and the right Content-Range. hand-written parser for the regex; inclusive/exclusive stop discrepancy refuted, rest proved.
* **C31** MIDI note names and numbers are mutually inverse. Int arithmetic with Python floor div/mod.
* **C32** MemoryBuffer is a faithful FIFO of bytes. MemoryBuffer state machine; refinement to FIFO.
* **C33** Reading a sound file by consecutive time slices returns every sample once. Int arithmetic; drift refuted at 44.1kHz, proved for divisors of 10^12 and for short files.
* **C34** AudioSamples conversions keep their promise. Rat samples.
* **C35** Overlap-add reconstructs the signal. List sums over Rat / Int.
* **C36** Every axis of an ArrayWithUnits keeps its own dimension. rank-generic lists of dims and index expressions.
* **C37** n-dimensional sliding windows address the right elements. stride arithmetic on shape lists.
* **C38** Applying a network in chunks equals applying it at once. chunking with arange; row-wise map.
* **C39** A trainer runs exactly the number of epochs it was asked for. training loop with fuel-free recursion on the epoch counter; off by one refuted.
* **C40** Similarity hashing depends only on direction. sign of dot products over Real/Rat.
* **C41** Ingesting a dataset processes every sound exactly once. lazy map vs pool; refuted for the default flags, proved for others.
* **C42** FreeSoundSearch yields exactly the requested number of sounds. pagination over pages list; off by one refuted/partial.
* **C43** A locally cached dataset file is always complete. file system with crash points; refuted; no-crash partial.
* **C44** Brute-force search returns the nearest documents with the right ids and times. row list with aligned ids, argsort as any stable sort.
* **C45** Variable-rate series return exactly the examples that overlap the requested slice. sorted list of slices; filter spec.
* **C46** Loudness transforms are inverse pairs with the stated range. Mathlib Real log/exp.
* **C47** With a secret set, every route except login needs the cookie. route table as list; decision logic.
* **C48** Bark/Mel/semitone conversions and scale shapes over the reals (log, sinh-free closed forms); band geometry.
* **C49** categorical / inverse_categorical over the reals with `junk` for masked division.
* **C50** windowing functions as coefficient lists over the reals; ogg vorbis power identity by trigonometry.
* **C51** url quoting as bytes ↔ percent escapes; tornado routing of the app's route table.
* **C52** training history as a fold over reported batches.
* **C53** MDCT/IMDCT as sums over the reals; time domain alias cancellation by orthogonality of the cosine kernel.
* **C54** rfft/irfft over the complex numbers, DCT-II/III orthogonality (`TrigSums`); overlap-add of weighted windows.
* **C55** the DCT-IV node's algorithm evaluated to a closed form; impulse response refutes the involution.
* **C56** the torch DCT algorithm (FFT of a padded signal) evaluated to closed form; window cache as an association list.
* **C57** phase shift as multiplication by powers of a root of unity.
* **C58** STFT frames through a phase vocoder whose unit step is exact; lengths by integer arithmetic.
* **C59** decomposition as a fold over sizes with an arbitrary resampling function.
* **C60** frequency-adaptive analysis/synthesis as weighted band projections.
* **C61** sample counts by floor arithmetic; samples over the reals.
* **C62** means and DCT of the log spectrum over the reals.
* **C63** weights as functions of centre frequencies; axis-generic multiplication.
* **C64** band sums over slices of the spectrum's scale.
* **C65 onwards (expectations the code does not meet)**: for each property above whose natural, stronger reading is false of the code, the
  stronger reading is a property of its own: a kernel-checked counterexample (`_fails`, `_refuted`, …) and the strongest statement that
  does hold. Where the theorems settle all inputs (`_exact`, an equivalence, or a refutation that covers every input) the property is stated
  with that condition and has status `proved`; otherwise it keeps the expectation as its statement and has status `partial`. Nothing was
  weakened silently: the note of each such claim names the witness against the natural reading.
* **C116–C124** Resampler: libsamplerate as an arbitrary stateful function with a contract; buffers as flat memory; induction over the stream.
* **C125–C133** FilterBank, PerceptualLoss, normalization, layer sizes: torch's convolutions and pooling as sums over ℝ; adjointness by exchanging sums,
  bounds by Cauchy–Schwarz.
* **C134–C146** losses: log/exp monotonicity over ℝ; tensors as row-major lists with the shape facts the code tests; critics, gradients, random draws and
  band decompositions as arbitrary functions.
* **C147–C153** metadata: sources as an inductive type, urlparse on lists of characters against a grammar, file system and libsndfile as an arbitrary world.
* **C154–C157** square views: resampling as an arbitrary function; layout by index arithmetic on flattened lists; overlap-add by induction on the frames.
* **C158–C159** autocorrelograms: Wiener–Khinchin over ℂ, by orthogonality of the roots of unity, then case analysis of the circular lags.
* **C160–C162** filter banks: scipy's Morlet formula over ℝ, firwin2 as an arbitrary function.
* **C163–C166** rainbowgrams and apply_scale: np.unwrap and np.gradient as recursive functions over ℝ, colormaps as arbitrary functions.
* **C167–C178** web application: serializers as a decision table over features, values and ranges; the interpreter behind the REPL as an arbitrary function; temporary results by induction over histories; the feature parser over syntax trees.
* **C179–C183** k-means codes and scikit-learn models: distances over ℝ, argmin by induction, the fitted model as an arbitrary function, components as a real matrix.
* **C184–C193** operations and versions: Python calls as argument binding over an arbitrary body, md5 as an arbitrary function with collision-freeness only of the two texts compared; pipelines' parts by list indexing.
* **C194–C200** trained networks: arrival histories by induction against an independent specification, storing as state functions over an arbitrary class.
* **C201–C211** archives: generators as functions from the server's answer to the yielded list and the final exception, with the dictionaries they change in place threaded through; an invariant (entries differ from the answer only in given attributes) by induction over the files.
* **C212–C217** `Model/SoundNodes.lean`: libsndfile readers over a growing buffer (a compressed reader stops for good once it has run short), `AudioStream._process`, the `OggVorbis` node and the composition of stream, resampler, sliding window and transform. Proof: induction over the schedule of arriving bytes; the graph theorem composes C212, C34, C117 and C03.
* **C218–C229** `Model/Training.lean`: the training loops as state transformers over networks with parameters and buffers, accumulated gradients, optimizer state, requires_grad flags and explicit random sources. Proof: a simulation lemma for loops that succeed (`batches_view`, `epochs_view`) against a fold of pure update steps; composition of epochs loops for checkpoints; Minkowski's inequality for the triplet loss.
* **C230–C234** `Model/Rates.lean`: resampling of rates with the C cut of `timedelta64 * float`, `HalfLapped`, the remaining comparisons of time slices, shapes and classes in `ComplexDomain`. Proof: floor bounds over ℚ, rounding bounds with `omega` for each supported rate.
* **C235–C240** `Model/Monitor.lean`: callbacks and pages of a training monitor as a transition system (atomic notifications, and notifications interleaved with the server thread), the life of the server thread. Proof: frame lemmas for callbacks, induction over event histories; an inductive invariant of the two threads for every schedule.
* **C241–C244** `Model/ArrayWrite.lean`, `Model/AudioIndex.lean`: assignment, memory shared by views, `AudioSamples` indexing and windows. Proof: numpy selections stay in bounds and are injective without repeated list positions (induction over the pieces of an index); frame lemmas for stores.
* **C245–C248** `Model/Stft.lean`: `stft` of one signal and of a batch, and the graph of a sliding window and an FFT node. Proof: both are lists of spectra of the same zero padded windows; counting windows.
* **C249–C256** `Model/Arith.lean`: operators, functions, reductions and augmented assignment of arrays with units through `__array_wrap__`/`__array_finalize__`. Proof: broadcasting characterised by a relation; structural induction over expressions; the memory model of C241.
* **C257–C262** `Model/Fit.lean`: training of preprocessing nodes, `Learned` on a stream, units through `transform`/`inverse_transform`. Proof: every step is a function of one example unless it leaves memory uninitialised; induction over the pipeline; real arithmetic for the standardisation.
* **C263–C265** `Model/AudioGraph.lean`: the nodes of `audio_graph` behind `resampled`, batch by batch. Proof: the windows of C246 kept in batches; every node acts row by row; uniqueness of the features of a window.
* **C266–C273** `Model/Blocks.lean`: `ConvLayer` (convolution, transposed convolution, sample and batch normalization, activation, dropout), `sample_norm` of images, `model_hash`, `gradients`, `debug_gradient`. Proof: sums over finite ranges exchanged (adjoint), induction over the stack of layers, over batches and over training passes.
* **C274–C277** `Model/Forward.lean`: the forward functions of learned networks and `SimHash` (units), what `_process` hands on and what it stores. Proof: `ArrayWithUnits` construction axis by axis (C36), chunked application (C38).
* **C278–C280** `Model/TimeRequest.lean`: range requests in seconds of ogg features and arrays. Proof: the header grammar (C30), truncated quotients as rational intervals, slices of time (C04).
* **C281–C283** `Model/Experiment.lean`: the steps of training under an experiment's settings, `fake_audio`, scaling before `stft`. Proof: induction over iterations and batches, the greatest element of a list.
* **C284–C291** `Model/Search.lean`: `HammingIndex` objects over one path as their users see them - creating, adding documents, searching, parsing results. Proof: a refinement from histories of index actions to histories of HammingDb operations (C11, C12, C15) and to a shelf of rows, by induction over histories; C17 for the times.
* **C292–C294** `Model/Threads.lean`: one `HammingDb` object used by any number of appending and searching threads, interleaved at every step (as with `HammingIndex(listen=True)`). Proof: invariants over all schedules (who holds the write transaction, what the shared row and buffer hold at each step of the append), counterexample schedules for every query and code.
* **C295–C297** `Model/Resynth.lean`: the graph's half lapped windows, FFT / MDCT nodes and the synthesizers composed. Proof: `run_frames` (C01-C03, every chunking) composed with the round trips C53 / C54.
* **C298–C300** `Model/Reservoir.lean`, `Model/MergeUnits.lean`: the sampler and `Merge` on arrays with units, whose indexing and concatenation rules decide which runs survive. Proof: induction over the schedule, simulation of the table-level model (C26, C28) by the one on arrays.
* **C301–C304** `Model/Array.lean` (frequency slices, with Hertz bounds and steps), `Model/ComplexDomain.lean`, `Model/ScaleDefaults.lean`. Proof: the index arithmetic of `getitem` composed with the bisection lemmas (C20, C21); real analysis for the tones.
* **C305** `Model/Forward.lean`: networks that may fail on a chunk. Proof: the first failing chunk determines the outcome, by induction over the chunks.
* **C306** `Model/Onsets.lean`: the graph of examples/segmentsearch.py, node after node. Proof: the batches of `SlidingWindow` are cut from `run` (C03), the picker is chunk independent (C25), the windows are those of the detection function continued by zeros.
* **C307** `Model/Pipeline.lean`: the values of `Sharpen` and `MuLawCompressed`, against a convolution with zeros outside and the textbook formula.
* **C308** `Pooled` over the slices of C306: time slicing of rows (C04) at multiples of the frame step becomes take/drop of rows; sortedness of the cuts by induction.
* **C309** `Model/Sinc.lean`: `SincLayer` over the reals with NaN as `none`; torch's `linspace`, `hamming_window` and `conv1d` from their documentation. Rounding is not modelled (for taps = 2^k + 1 the middle coordinate is zero in float32 too).
* **C310** `ensure_overlap_ratio` (C22) on whole scales: neighbouring bands of a geometric scale are multiples of each other, so one inequality decides.
* **C311** `Model/UnitNorm.lean`: `safe_unit_norm` over the reals for one to three axes, with numpy's broadcasting of the division.
* **C312** `Model/DctAxis.lean`: the transforms of C56 on batches with the axis argument and `zero_slice`; `torch.matmul` from its documentation.
* **C313** `Model/PackBits.lean`: `ArrayWithUnits.packbits` over the arrays of C36 and the bytes of C14; `np.packbits` from its documentation.
* C314: compose Model/Stft (graph), Model/FaTransform (analysis and synthesis) and Model/Resynth in Model/Adaptive; the weights by C60_fft, the hanning window vanishes at both ends; the time domain by the inverse FFT and the overlap-add theorem C35.
* C315: Model/Stored composes Model/Persist and Model/DimCodec with the array constructor; round trip by C18 and C19, the installed sizes by cases on the dimension.
* C316: AudioSamplesDecoder and FrequencyAdaptiveDecoder on top of C315; the rate by C07, the bands by C24.
* C317: dispatch over the whole route table, with a converse (if a POST ran a handler, then the path was one of four).
* C318: Model/AudioOps puts AudioSamples.sum/max/dot/zeros_like/concat/T on top of the array model; the reductions are computed out to sums over channels and frames, concat is reduced to the array theorem C36_concat.
* C319-C323: Model/Float64 defines rounding to double precision (53 bit significand, ties to even, exponents unbounded) and recomputes with it the quotients that Model/Time, Model/Synth and Model/Tones take exactly; Lemmas/Float64 proves nearest, relative error 2^-53, scaling by powers of two, and that floor and rint of the rounded quotient of two 53/52 bit integers are those of the exact one; the refutations are computed from the definition.
* **C324–C326** (Model/FloatRange.lean, Model/FloatSizes.lean): the functions of C278, C27, C32 and the resampler again with every floating point operation rounded (Model/Float64.lean); error bounds by the relative error of a rounding, exactness where the exact value stays away from a boundary, ties through the neighbours of a half.
* C327 (page inlining): model the regular expression, `finditer`, `str.replace` and the loop over tags on character lists; specify the page by a one-pass relation; prove by an invariant that after any prefix of the loop exactly the tags processed have been replaced.
* C328-C332: Model/Hertz.lean models the number classes Hertz, Bark and Mel as pairs of a float value and an hz attribute, equality of bands with scales, and Q; C328 by induction on expressions, C329 with strict convexity of exp, C330 over all scales, C332 from C21/C48.
* C333, C334 (phase_shift): Model/PhaseBand.lean composes copying, indexing by frequency, augmented assignment and broadcasting (Model/Array, ArrayWrite, Arith); proved from the theorems about each (C256, C301).
* C335, C336: Model/BandLoss.lean puts the bands of Model/Spectral.lean into Model/Loss.lean's loss. Dividing a vector by its norm plus a constant is injective, and so is the inverse transform (orthogonality of the columns of the basis); an induction over the stops turns equal bands into equal coefficients. Volume: every feature moves by at most 10^-8 / d.
* C337: the products of the basis functions summed over the samples, half the first sample left over; the rest is algebra.
* C338-C340 (Model/Cut.lean, Props/Cut.lean): indexing a frequency-adaptive array along its frequency axis as a whole, columns and dimension, from the model of ExplicitFrequencyDimension in Model/Frequency.lean; the touching bands are a run of bands (C20), the columns a difference of cumulative sizes.
* C341-C344: Model/Browser.lean: state machines for the scripts of the pages (console, results, visualization with its bus, client); invariants over all histories by induction from the right.
* C345: double-precision arithmetic of Model/Float64.lean on both sides, composed with C324.
* C346: percent encoding as functions on characters, shown to be inverted by the server's double unquoting; base64 from Model/Persist.lean.
* C347: the browser's history as a list of entries; invariant over patient sessions; two refutations.
* C348-C353: composition of the models of k-means codes, sliding windows, Max, feature encoding and the index over its whole history; specification by sets of nearest codewords and separating hyperplanes.
* C354-C358: the pipeline model with k-means as a step; specification of the result by nearest codewords and Euclidean length; variance identity for the loudness.
* C359-C361: the README's filter as getitem, zeros_like and setitem on shared memory (Model/Filter); entries characterised by the bands that touch; linearity of the synthesizers by induction over the frames of overlap-add.
* C362-C367: energies from the orthogonality of the kernels (C53, C54) and from the power-complementary ogg window (C50), half window by half window; linearity of the streaming window node by naturality: the node never looks at the samples, so running it on pairs gives both runs and the run of the mix; delays by the position of every window.
* C368, C369, C370: `Props/MdctBack`: the columns of the MDCT are orthogonal, its halves (anti)symmetric and the ogg window power complementary, so overlap-add followed by analysis is the identity up to the window's factor; energies through the same sums, errors through linearity (C361); FFT and DCT by Cauchy-Schwarz on the two windows that overlap, with two windows that cancel as counterexample.
* C371: `Model/Duration`, Python's `int` as truncation; floor and ceiling bounds.
* C372, C373: `Model/Shuffled`, the node over the reservoir of C26/C27; the last writer of every slot by induction from the end of the stream; the count by induction over the length of the stream.
* C374: `Model/Sampler` over the reservoir of C26/C27; an invariant over documents and passes.
* C375: the steps of `Reservoir.add` interleaved by a schedule; invariants `Ready` (an array exists) and `Mixed` (any moment); a race as a concrete schedule for all rows.
* C376: `Model/MuxThreads`, writes of keys interleaved by a schedule; an invariant about one slot; the serial case by induction over the order.
* C377: `Model/Memory`, arrays as lists of addresses; a chain of steps each of which leads to the same memory or to new cells.
* C378: a heap of arrays; `Shared.step` refines `Growable.step` of C10; an invariant about views.
* C379: what is kept is a copy or the array itself; induction over passes with the invariant of C374.
* C380: `Model/Memory.pushIn`, composed with the stream theorem of the SlidingWindow model.
* C381: `Model/Desk`, programs over arrays as lists of addresses with numpy's writeable flag; a family book computed from the history alone; an invariant that relates the two.
* C382: `Model/Bins`, the FFT and DCT nodes together with the scale they attach; sums of roots of unity; the inverse cosine transform (C54); band search (C20).
* C383: `Model/ToneFilter` on top of `Filter.bandPass` (C359), `zfft`/`irfft` (C54) and the bands of tones (C382); linearity of the transform by induction on the tones.
* C384: `Model/SineSpectrum`, the sine synthesizer's sound (C61) as a sum of tones, its transform by C382/C383, its labels by C382_band.
* C385: no new model: `Bins.fftNode` (C382) with padding; the transform of a padded window is the sum over the window only.
* C386: no new model: `SineSpectrum.windowSpectrum` (C384); a window `h` samples on is the window turned around by `h`, and the transform of a turned window is the shift theorem of C57.
* C387: no new model: `Spectral.timeStretch` (C58). All frames of the analysis are equal; all phase advances are whole turns, magnitudes interpolated between equal ones stay, so all new frames are the same frame.
* C388: no new model: `SineSpectrum.windowSpectrum` (C384) and `Rainbow.applyScale` (C165, C166): the coefficients of half-lapped windows of such sines are all purely imaginary.

## 5. Findings

Places where the code does something other than its documentation or its obvious reading says; each is a theorem (see the MANIFEST entries
of status `partial`, and those whose theorems end in `_refuted` or `_fails`).

* windowed(dopad=True) can drop samples; SlidingWindow's final padded count depends on chunking, and windows shift when step > window.
* Slices of times resolved before the array wrap around; the intersection of two TimeSlices always starts at 0.
* Growable with a position beyond its array raises; HammingDb.search(n >= size) raises; a failed commit leaves a ghost in memory;
  non-ASCII text codes evade the size check; code size 0 is ignored.
* HammingIndex can never be restarted (text key, TypeError); with a tolerant binding a crash loses or duplicates segments of one document.
* Negative, NaT and open time values cannot be stored; packed features cannot be built; tuple slices and scale subclasses do not round trip.
* always_even selections can be odd; Bark/Mel bounds raise; slices of one band or none change or raise; ExplicitScale equality ignores extra
  bands and is not symmetric.
* Onset: the threshold is read one column after the peak, so isolated peaks are never detected; an onset in row 0 gives an empty slice.
* Reservoir batches are not uniform; refused or interleaved adds misalign multiplexed keys; negative indices are counted twice.
* Merge loses zero-width rows; Sum always raises.
* Constant features, silent examples and one-dimensional unit norm are not inverted.
* Byte ranges exclude their end, bytes=0-0 serves everything, suffix/multi/unsatisfiable/reversed ranges are mishandled.
* MIDI names reject flats and lower case; float note numbers cannot be read back.
* MemoryBuffer positions are renumbered by compaction; tell() can be stale.
* Reading an ogg file second by second skips a frame at 44100 Hz (second 535) and 96000 Hz (second 163).
* mono of two channels is half the average; silence_like is all ones; one sample of silence, padding of multichannel audio and columns fail;
  duration_in_seconds is one sample; only `+` checks rates.
* Indexing: None before semantic slices, numpy integers, integer arrays, integer beside a list, stepped slices, dot, later time axes.
* apply_network fails on empty input; base and triplet trainers run one epoch more; bound methods cannot be unregistered; supervised train/test
  errors are swapped.
* Serial ingest does nothing; repeated urls may be processed twice; elements without request are dropped.
* FreeSoundSearch yields one more than asked for and starts over; interrupted or failed downloads are taken for complete; DataSetCache raises
  on Python 3.
* span of a variable-rate series can miss examples; unit_scale of a constant is undefined; categorical is not inverted.
* PATCH, routes containing 'login' and an empty secret are unprotected; base paths other than /zounds/ and the id 'temp' do not work;
  training history keeps n+1 points.
* Bark/Mel bands stick out of their range and change when sliced; integer and stereo audio are mis-windowed; ogg window power is not one.
* Odd FFT windows lose a sample; DCTIV is not an involution; torch idct∘dct doubles the first sample; short_time_dct is not transposed; the
  window cache ignores its function; phase_shift nearly doubles the delay; time_stretch(1) amplifies; pitch_shift drops the end.
* frequency_decomposition loses the remainder unless the own size is requested; adjoining adaptive bands double a coefficient; evenness of
  analysis and synthesis differs by default.
* Ticks drift and can exceed one; silence may be longer than noise.
* The spectral centroid and BFCC depend on the volume; bands sliced from adaptive arrays are weighted by zero; chroma counts bands for the
  wrong tone.
* Resampler rounds every chunk separately, fails (or overruns its buffer, with several channels) on chunks that come to one sample, reads
  transposed arrays in the wrong order, and looks at the first chunk's rate only.
* `MultiResolutionBlock` with kernels of mixed parity cannot concatenate; `FilterBank.transform`'s frames are half a pooling kernel earlier than
  labelled, and one band or one frame raises ValueError; `SincLayer` starts with periods where frequencies are meant.
* `CategoricalLoss` of raw audio mixes positions and categories, truncates targets but rounds inputs, and scales by the maximum of the batch;
  `RawSampleEmbedding` always raises; the gradient penalty of audio looks at single derivatives instead of the norm.
* `MetaData` overrides a `Range` header not spelled in lower case; metadata of an open file cannot be stored; equality of metadata ignores
  keyword properties.
* `FrequencyAdaptive.square(…, do_overlap_add=True)` advances by the overlap instead of the hop: ValueError below half overlap, misplaced frames above.
* `morlet_filter_bank`'s wavelets oscillate at K / (K - 1) times the centre frequency; `fir_filter_bank` leaves filters without a window zero;
  `apply_scale` and `rainbowgram` take the absolute value of the real part instead of the magnitude.
* Stored arrays cannot be fetched without a range of seconds, audio samples and onsets not at all (no serializer, or one that needs a value);
  search results are never delivered (the query is put into JSON as bytes); the REPL runs expressions that raise a SyntaxError twice and drops
  what expressions print; a reused `FeatureParser` repeats the last feature.
* `KMeans` decodes a code without a one to nothing, shortening the batch; `SklearnModel` cannot transform an empty batch; `WithComponents` forgets the
  mean its model subtracted.
* `Op` drops default values, closures and module names of its function; its version ignores parameter names and boundaries and uses memory addresses of
  objects, so versions change on loading; `BasePreprocessor` without a backward function raises TypeError on inversion; an out-of-memory error during training
  is handled with `e.message` (AttributeError in Python 3); `infinite_streaming_learning_pipeline` changes the class it is given.
* `InternetArchive` changes the entries it filters, so given attributes decide what is yielded, describes derived files with their originals' metadata, and cannot take a
  format name as documented; `MusicNet` (csv read as bytes) and `PhatDrumLoops` (text pattern on bytes) never yield anything; stored metadata of sounds in memory loses the url.
* **C213, C215** a flac or ogg reader that once ran out of bytes never resumes: `AudioStream` loses everything after a chunk that does not decode to a full chunk of samples, and `OggVorbis` encodes only what the first chunk holds. **C216** subtypes missing from `byte_depth` are a KeyError.
* **C219–C229** training: test batches change running statistics; the triplet trainer forgets its optimizer at each checkpoint, may take anchors as negatives and fails with its default arguments; `random_sample` pairs inputs with outputs of the test batch; the Assert handler raises AttributeError; the Wasserstein trainer cannot run without critic iterations and leaves the critic frozen.
* **C231–C234** a ratio and its reciprocal lose picoseconds; `HalfLapped()` is one sample off at 48 and 16 kHz; `ComplexDomain` raises for every input, so `with_onsets` never yields.
* **C237–C240** monitors report by row number, not by batch; opening or closing a page during a notification raises RuntimeError in the training loop; leaving an application before its port is bound is an AttributeError and leaves the server running.
* **C241, C243, C244** an empty band slice can be written but not read; `stereo[:, 0]` is no longer AudioSamples; `audio[::2]` claims the full sample rate; `sliding_window` without padding drops a signal of exactly one window and refuses windows of one sample.
* **C247, C248** `stft(window=None)` is a TypeError; in a batch the last frame of a signal is missing, and signals shorter than a window are refused.
* **C251–C255** arrays with different units add up and take the units written first; `frame + frames` has a stale time dimension; `a + b` loses its units if `b` has more axes; `mean`/`min`/`std` lose them, or with `keepdims` keep a stale one; `a.transpose()` swaps axes but not dimensions.
* **C258, C259** a value that is constant over the training examples is standardised to uninitialised memory; `Sharpen()`, `Binarize`, `AbsoluteValue` swallow every exception during training, so a pipeline that can never transform anything is stored without complaint.
* **C265** the "Bark frequency cepstral coefficients" of `audio_graph` are computed from the linear spectrum, not from the Bark bands.
* **C271** `sample_norm` views the norms of a four-dimensional tensor as (N·H, 1, W): `Conv2d(sample_norm=True)` raises, or mixes examples, unless N·H = 1.
* **C272, C273** `model_hash` never returns; `debug_gradient=True` ends training with IndexError in the first batch.
* **C275, C277** `PyTorchGan` keeps the data's time dimension on axes whose size the network changed; with `apply_network='generator'`, the default, later nodes are trained on the discriminator's output.
* **C279** a reversed request `seconds=2-1` of an ogg feature sends everything from 2 on; one past the end is labelled with an end later than the total.
* **C281–C283** a `GanExperiment` with default settings fails with TypeError before the first step; with `batch_size=1` `fake_audio` fails; spectrograms are scaled by the greatest sample, not by the peak.
* **C286–C291** a document whose indexing fails stays indexed in part; codes shorter than 57 bits cannot be indexed; searching an index that is still empty is a ValueError, a random search of an empty database never returns; an index object created before the first document reports length 0 for ever while it is not used; extra_data functions added later make every search a KeyError.
* **C293, C294** the code buffer of a HammingDb object is shared by all threads: a search interrupted by an append or another search is answered for the wrong code, and a search at the wrong moment puts its own query into memory under the id of the code that is being appended, where it stays until the object is reopened.
* **C297** a resynthesised sound is louder than the original by `1/max(window)²` (the window is normalised to maximum 1 although its sampled maximum is below 1), for every window size.
* **C25, C80** the `Flux` node can never emit: it labels one number per row with the two dimensions of its input (ValueError for every chunk).
* **C298** `ReservoirSampler` on arrays with units raises IndexError as soon as all draws for the surplus rows of a chunk are rejected (an empty list is not an index of ArrayWithUnits): row by row, only n^m of the (n+1)…(n+m) draws survive.
* **C300** `Merge` can never emit a merged spectrum: the concatenation along the frequency axis keeps the frequency dimension of the first source, whose size no longer fits (ValueError).
* **C36** concatenating arrays one of which has a time (or frequency) dimension where the other has another kind of dimension raises AttributeError (the comparison of dimensions reads attributes of the other), not the ValueError for mismatched dimensions.
* **C301** a stepped slice of a linear spectrum relabels the columns; one column cut out of a linear spectrum has a scale without bands; `x[:, :]` of a chroma spectrum raises NotImplementedError.
* **C302** `ComplexDomain` (and so `with_onsets`) always raises; `x[np.where(...)]` on two-dimensional arrays with units always raises.
* **C303** `apply_scale(x, scale)` with its default window raises TypeError.
* **C304** Chroma of a band from 0 Hz (such as the band of an FFT spectrum) is an OverflowError; the top of the band is not counted.
* **C304** Chroma of a band from 0 Hz (such as the band of an FFT spectrum) is an OverflowError; the top of the band is not counted.
* **C305** Out of memory after training is an AttributeError (`e.message`), and the trained network is lost.
* **C306** Slices between percussive onsets end `w//2` frames after the sound, or before its end, depending on how it arrives; onsets are reported one frame after the peak.
* **C308** With half-overlapping frames the frame before an onset (the one with the peak before it) is pooled into both neighbouring slices.
* **C309** SincLayer with an odd number of taps computes sin(0)/0 at the middle tap, so all of its output is NaN; with an even number the output is one sample longer than the input and the filters are not symmetric.
* **C311** `safe_unit_norm` adds the missing axis at the second position instead of the last, so for three axes it divides by the wrong lengths or fails.
* **C312** `DctTransform` ignores its axis argument where it multiplies: any axis but the last fails or transforms the wrong one.
* **C313** `packbits` labels the result with the unpacked array's dimensions: default call fails for two axes, frequency axes are refused, time axes shrink.
* C314: np.hanning is zero at both ends, so the frequency_adaptive graph (audiograph.py:120) never gives the DC and the Nyquist coefficient any weight, whatever the scale: even a scale accepted by check_scale_overlap_ratio loses the mean of each window.
* C315: only the first piece's dimensions are written; for an array whose first axis is a FrequencyDimension this makes a feature stored in more than one piece unreadable (ValueError from FrequencyDimension.validate).
* C318: `AudioSamples.dot` can never succeed (audiosamples.py inherits axis.py:158-160, whose result is handed with dimensions to a constructor that wants a sample rate); `sum(axis=-1)` silently stops being audio.
* C320: a slice ending exactly 1/200 of a period into a sample includes that sample or not depending on rounding.
* C321: DCT and DCTIV nodes refuse about one in eight window sizes at 16 kHz (ValueError), because int(w / seconds) truncates 15999.999999999998.
* C322: NoiseSynthesizer and TickSynthesizer lose a sample for some durations that are a whole number of samples; ticks may drift by a sample per tick.
* C323: SineSynthesizer gives one sample too many for some frequencies and raises when mixing frequencies whose arrays of phases differ in length.
* C324: `seconds=2.01-3.01` of a 16 kHz sound is answered one frame early, because 1e12 · 2.01 is just below a whole number in double precision and `int` cuts it off.
* C326: a feature whose share of the reservoir is a whole number may contribute one row less (98 · (1/49) is below 2 in double precision).
* C327: `BaseZoundsApp._get_html` replaces script tags one after the other in the page it has already filled, so a script whose text mentions another script's tag is altered; a protocol-relative `src="//host/…"` is opened as an absolute local path.
* C328: float(Hertz(440)) and Hertz(Hertz(440)) are TypeErrors (Hertz.__float__ returns an int), also for both ends of FrequencyBand.audible_range.
* C329: Bark(10) < 11 although ten Bark are more than 1500 Hz.
* C331: FrequencyBand(0, 100) == LinearScale(FrequencyBand(0, 100), 10) is True, the other way round False.
* C334: phase_shift(axis=0) of a two dimensional spectrum is a ValueError, or, if it is square, turns the coefficients by the factors of the wrong axis (C334).
* C337: dct_resample multiplies the volume by sqrt(n/m) and adds a click of the size of the first sample to all tones; C335: a BandLoss whose factors stop short of 1 does not see the highest frequencies at all.
* C338: on a linear scale, cutting out a range that touches one band keeps the whole array's frequency dimension, because the IndexError of the one-band scale is swallowed (core/axis.py:290).
* C339: slices are not rebased by a cut, so a second cut selects wrong columns unless the first began with the first band.
* C340: fa[:, i:j] cuts columns by position but bands by position too, which agree only if every band has one coefficient.
* C341: the REPL page's history is in order of answers, not of entry; an answer arriving while the reader browses resets the position.
* C342: an image that arrives late is added next to that of the result now on display; an empty result list makes the script fail.
* C343: search results that arrive after another feature was shown are appended to it, and the keys then act on both.
* C344: `var key` in a closure: every method of a client with several endpoints calls the last endpoint.
* C345: results starting less than a microsecond into a sound cannot be requested (exponent notation).
* C347: going back to the address a search page was opened at does not restore its results.
* C348: a stream ending on an empty chunk gets a further code of zeros that belongs to no frame.
* C351: the code of a silent frame after UnitNorm depends on uninitialised memory.
* C356, C357: a full pass of examples/mdct_synth.py makes every frame quieter unless its cluster is a single shape, and each further pass again.
* C360: splitting a spectrum at a frequency always counts one column twice, so a crossover built from the README's filter does not add up.
* C370: FFT and DCT coefficients do not come back from the sound made of them: two windows that cancel where they overlap have non-zero spectra and an all-zero sound.
* C371: `Seconds(0.5)` is zero seconds: the constructors drop fractions silently.
* C372: `learning_pipeline` with `nsamples` larger than the data still loses rows, because rows are written to random slots.
* C373: of the rows of a stream the later ones are kept with a higher probability.
* C374: one document without rows stops `InfiniteSampler` with a ValueError.
* C375: `InfiniteSampler`'s default thread pool races in `Reservoir._init_arr`: the first batch may hold rows of zeros that are in no document.
* C376: `InfiniteSampler(multiplexed=True)` with its default thread pool may pair the sound of one example with the label of another.
* C377: overlapping windows handed out without a windowing function are views: an in-place change of one window changes its neighbours, the leftover samples of the next chunk and the input.
* C379: once its reservoir is full `InfiniteSampler` yields the same array again and again, and overwrites batches that were yielded before.
* C380: without a windowing function an in-place change of a batch by a consumer changes the overlapping samples of later windows, and the first chunk.
* C381: features read back from storage are read-only, and so is everything made of them without a copy; mono and stereo are the same object or a copy depending on the number of channels.
* C382: at 11025 samples per second the Nyquist frequency is rounded down, so tones of the top coefficients are outside the bands they are labelled with (with 512 samples: coefficients 251 to 256).
* C384: a sine above half the rate is found in a band that does not contain its frequency (aliasing; the synthesizer does not refuse it), one of exactly half the rate is silent.
* C388: `apply_scale` of a half-lapped spectrogram (no window function) of synthesized sines of k·s/w hertz is zero everywhere: only real parts are measured, and these coefficients are purely imaginary (`C388_refuted`).
