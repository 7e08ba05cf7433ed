import Verif.Model.Frequency
import Verif.Model.Spectral
/-!
# Frequency-adaptive analysis and synthesis

zounds/spectral/spectral.py:157-216 `FrequencyAdaptiveTransform`, zounds/synthesize/synthesize.py:303-340
`BaseFrequencyAdaptiveSynthesizer`, 409-420 `FrequencyAdaptiveDCTSynthesizer`, 487-500 `FrequencyAdaptiveFFTSynthesizer`.

`α` are frequencies, `γ` frequency domain coefficients, `β` the samples of a transformed band.  The transform given to the node and
the one the synthesizer applies are parameters acting on one row; they are instantiated with the transforms of `Model/Spectral.lean`.
-/

namespace Zounds.FaTransform
open Zounds Zounds.Freq

variable {α : Type} [Field α] [LinearOrder α] {β γ : Type}

/-- spectral.py:187-200 `FrequencyAdaptiveTransform.__init__`: when asked to check, a scale whose neighbours overlap by less than half
is refused with a ValueError in place of the AssertionError. -/
def construct (X : NumExt α) (scale : Scale α) (check : Bool) : Except PyErr Unit :=
  if check then
    match scale.bands X with
    | .error e => .error e
    | .ok bs =>
      match ensureOverlapRatio (1 / 2) bs with
      | .error .assertionError => .error .valueError
      | .error e => .error e
      | .ok _ => .ok ()
  else .ok ()

/-- One row of `_process_band` (spectral.py:204, 209-210): selected, weighted, transformed. -/
def weightedRow [Mul γ] (T : List γ → Except PyErr (List β)) (window : Nat → List γ) (out : SliceOut α) (r : List γ) :
    Except PyErr (List β) :=
  match out.select r with
  | .error e => .error e
  | .ok raw => T (List.zipWith (· * ·) raw (window raw.length))

/-- spectral.py:202-210 `_process_band`: the columns of the band, weighted (`raw_coeffs * window[None, :]`) and transformed, row by
row; with the number of columns the result has.  Without any row the number of columns is not modelled (zero). -/
def processBand [Mul γ] (X : NumExt α) (T : List γ → Except PyErr (List β)) (window : Nat → List γ) (lin : Scale α)
    (rows : List (List γ)) (b : Band α) : Except PyErr (Nat × List (List β)) :=
  match lin.getSlice X (.band b) with
  | .error .indexError => .error .valueError
  | .error e => .error e
  | .ok out =>
    match rows.mapM (weightedRow T window out) with
    | .error e => .error e
    | .ok rs => .ok ((rs.headD []).length, rs)

/-- spectral.py:212-216 `_process`. -/
def analyze [Mul γ] (X : NumExt α) (T : List γ → Except PyErr (List β)) (window : Nat → List γ) (lin : Scale α)
    (rows : List (List γ)) (scale : Scale α) : Except PyErr (FreqAdaptive α β) :=
  match scale.bands X with
  | .error e => .error e
  | .ok bs =>
    match Freq.sequence (bs.map (processBand X T window lin rows)) with
    | .error e => .error e
    | .ok arrs => FreqAdaptive.new X arrs scale

/-- `row[lo:hi] += v` (synthesize.py:339): numpy wants as many numbers as there are columns, or one for all of them. -/
def addRun [Add γ] (row : List γ) (lo hi : Nat) (v : List γ) : Except PyErr (List γ) :=
  let target := (row.take hi).drop lo
  if v.length = target.length then
    .ok (row.take lo ++ List.zipWith (· + ·) target v ++ row.drop (lo + target.length))
  else
    match v with
    | [c] => .ok (row.take lo ++ target.map (· + c) ++ row.drop (lo + target.length))
    | _ => .error .valueError

/-- synthesize.py:339, one band: `coeffs[:, band] += band_transform(fac[:, band])`. -/
def addBand [Add γ] (X : NumExt α) (S : List β → Except PyErr (List γ)) (lin : Scale α) (fa : FreqAdaptive α β) (coeffs : List (List γ))
    (b : Band α) : Except PyErr (List (List γ)) :=
  match fa.getBand X b with
  | .error e => .error e
  | .ok rows =>
    match rows.mapM S with
    | .error e => .error e
    | .ok vs =>
      match lin.getSlice X (.band b) with
      | .error e => .error e
      | .ok (.same _ _) => .error .typeError
      | .ok (.run lo hi) => (coeffs.zip vs).mapM fun p => addRun p.1 lo hi p.2

/-- synthesize.py:337-338, the loop over the bands. -/
def addBands [Add γ] (X : NumExt α) (S : List β → Except PyErr (List γ)) (lin : Scale α) (fa : FreqAdaptive α β) :
    List (Band α) → List (List γ) → Except PyErr (List (List γ))
  | [], coeffs => .ok coeffs
  | b :: bs, coeffs =>
    match addBand X S lin fa coeffs b with
    | .error e => .error e
    | .ok coeffs => addBands X S lin fa bs coeffs

/-- synthesize.py:323-338: the frequency domain coefficients rebuilt on the linear scale `lin`, from zeros. -/
def recover [Add γ] [Zero γ] (X : NumExt α) (S : List β → Except PyErr (List γ)) (lin : Scale α) (scale : Scale α) (fa : FreqAdaptive α β) :
    Except PyErr (List (List γ)) :=
  match scale.bands X with
  | .error e => .error e
  | .ok bs => addBands X S lin fa bs (fa.rows.map fun _ => List.replicate lin.len 0)

/-- synthesize.py:323-340 with 416-427, `FrequencyAdaptiveDCTSynthesizer.synthesize`: the linear scale of the sample rate has as many
bands as a window has samples and is sliced evenly; `DCTSynthesizer()` does not weight the windows. -/
noncomputable def dctSynthesize (X : NumExt α) (scale : Scale α) (nyquist : α) (sampleFrequency : Int) (td : Time.Dim) (fa : FreqAdaptive α ℝ) :
    Except PyErr (List ℝ) :=
  let n := (td.duration / sampleFrequency).toNat
  match Band.new 0 nyquist with
  | .error e => .error e
  | .ok fb =>
    match recover X Spectral.scipyDct (.linear fb n true) scale fa with
    | .error e => .error e
    | .ok coeffs => Spectral.dctSynthesize none ⟨td, n, coeffs⟩

/-- synthesize.py:323-340 with 500-513, `FrequencyAdaptiveFFTSynthesizer.synthesize`. -/
noncomputable def fftSynthesize (X : NumExt α) (scale : Scale α) (nyquist : α) (sampleFrequency : Int) (td : Time.Dim) (fa : FreqAdaptive α ℝ) :
    Except PyErr (List ℝ) :=
  let n := (td.duration / sampleFrequency).toNat / 2 + 1
  match Band.new 0 nyquist with
  | .error e => .error e
  | .ok fb =>
    match recover X Spectral.rfft (.linear fb n false) scale fa with
    | .error e => .error e
    | .ok coeffs => Spectral.fftSynthesize ⟨td, n, coeffs⟩

end Zounds.FaTransform
