import Verif.Model.Float64
import Verif.Model.Buffer

/-!
# Sizes computed through a ratio, as the machine computes them

resample.py:65, 87-88, random_samples.py:181-188 and byte_depth.py:27-33 multiply a count by a quotient held in double precision; Model/Resample.lean,
Model/Reservoir.lean and Model/Buffer.lean take the product exactly.  Here each operation rounds (Model/Float64.lean).
-/

namespace Zounds.FloatSizes
open Zounds Zounds.Float64

/-- resample.py:65 and 87-88: the ratio, and `int(np.round(len(insamples) * self._ratio))`, the frames of the output buffer.  (Python's `/` of two integers is correctly
rounded; both rates are small enough to be doubles.) -/
def outFrames (orig new n : ℕ) : ℤ := rint (fl64 (fl64 n * fl64 ((new : ℚ) / orig)))

/-- random_samples.py:181-188: `max(1, int(nsamples * (float(size) / total)))`. -/
def contribution (nsamples size total : ℕ) : ℤ := max 1 (trunc (fl64 (fl64 nsamples * fl64 (fl64 size / fl64 total))))

/-- byte_depth.py:29-33: the seconds of sound in the buffer less six, at least one, in samples; `k` is the number of bytes of one frame. -/
def chunkSamples (k rate nbytes : ℕ) : ℤ :=
  trunc (fl64 (max 1 (fl64 (fl64 ((nbytes : ℚ) / ((k * rate : ℕ) : ℚ)) - 6)) * fl64 rate))

/-- byte_depth.py:19-33 `chunk_size_samples`: an unknown subtype is a KeyError, a zero rate or channel count a ZeroDivisionError. -/
def chunkSizeSamples (subtype : String) (channels rate nbytes : ℕ) : Except PyErr ℤ :=
  match Buffer.byteDepth.lookup subtype with
  | none => .error .keyError
  | some d =>
    if d * rate * channels = 0 then .error .zeroDivision
    else .ok (chunkSamples (d * channels) rate nbytes)

end Zounds.FloatSizes
