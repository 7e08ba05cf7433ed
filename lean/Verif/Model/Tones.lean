import Verif.Model.Audio
import Verif.Model.Synth
import Mathlib.Analysis.SpecialFunctions.Trigonometric.Basic

/-!
# zounds/synthesize/synthesize.py:516-684: sine, tick, noise and silence synthesizers

Times are picoseconds and quotients of times are taken exactly (the code divides in double precision); `np.random.uniform` is the
sequence of its draws, an argument.
-/

namespace Zounds.Tones
open Zounds Zounds.Audio

/-- synthesize.py:560: `ts = (duration / Seconds(1)) * sr`, and the number of elements of `np.arange(0, ts * c, c)` (561), `⌈ts⌉` for
every `c` that is not zero, and none if that is negative. -/
def sineCount (sr duration : Int) : Nat := (-((-(duration * sr)) / 10 ^ 12)).toNat

/-- synthesize.py:556-562, the samples.  No frequencies: `1 / len(freqs)` is a ZeroDivisionError; a frequency of zero:
`np.arange(0, 0, 0)` is a ValueError. -/
noncomputable def sineSamples (sr duration : Int) (freqs : List ℝ) : Except PyErr (List ℝ) :=
  if freqs = [] then .error .zeroDivision
  else if 0 ∈ freqs then .error .valueError
  else .ok ((List.range (sineCount sr duration)).map fun i : Nat =>
    (freqs.map fun f => Real.sin (((i : ℝ) * (f / (sr : ℝ))) * (2 * Real.pi)) * (1 / (freqs.length : ℝ))).sum)

/-- synthesize.py:546-563 `SineSynthesizer.synthesize`. -/
noncomputable def sine (r : RateArg) (duration : Int) (freqs : List ℝ) : Except PyErr (Audio ℝ) :=
  match sineSamples r.rate.samplesPerSecond duration freqs with
  | .error e => .error e
  | .ok xs => Audio.new (.vec xs) r

section
variable {α : Type} [Field α]

/-- `np.linspace(1, 0, m)` (for a single sample, `[1]`: division by zero is zero in Lean). -/
def envelope (m : Nat) : List α := (List.range m).map fun j : Nat => 1 - (j : α) / ((m : α) - 1)

/-- synthesize.py:605-606: `int(sr * .1)` draws times the envelope. -/
def tickSound (draws : Nat → α) (m : Nat) : List α := List.zipWith (· * ·) ((List.range m).map draws) (envelope m)

/-- synthesize.py:605: `int(sr * .1)`. -/
def tickLength (sr : Int) : Nat := (sr / 10).toNat

/-- synthesize.py:608: `int(sr * (duration / Seconds(1)))`; also 653. -/
def sampleCount (sr duration : Int) : Int := (sr * duration).tdiv (10 ^ 12)

/-- synthesize.py:609-611: `int(sr // (Seconds(1) / tick_frequency))`; a tick frequency of zero makes infinitely many ticks a second
and a step of zero. -/
def tickStep (sr tickFrequency : Int) : Int := sr * tickFrequency / 10 ^ 12

/-- synthesize.py:593-615 `TickSynthesizer.synthesize`.  `np.zeros` of a negative size and `range` with a step of zero are
ValueErrors; `range` with a negative step is empty here. -/
def ticks (r : RateArg) (duration tickFrequency : Int) (draws : Nat → α) : Except PyErr (Audio α) :=
  let sr := r.rate.samplesPerSecond
  let n := sampleCount sr duration
  let step := tickStep sr tickFrequency
  if n < 0 then .error .valueError
  else if step = 0 then .error .valueError
  else
    let zeros : List α := List.replicate n.toNat 0
    if step < 0 then Audio.new (.vec zeros) r
    else
      match Synth.addFrames step.toNat (tickLength sr) 0
          (List.replicate ((n.toNat + step.toNat - 1) / step.toNat) (tickSound draws (tickLength sr))) zeros with
      | .error e => .error e
      | .ok xs => Audio.new (.vec xs) r

/-- synthesize.py:644-654 `NoiseSynthesizer.synthesize`; `np.random.uniform` refuses a negative size. -/
def noise (r : RateArg) (duration : Int) (draws : Nat → α) : Except PyErr (Audio α) :=
  let n := sampleCount r.rate.samplesPerSecond duration
  if n < 0 then .error .valueError else Audio.new (.vec ((List.range n.toNat).map draws)) r

/-- synthesize.py:677-684 `SilenceSynthesizer.synthesize`. -/
def silent (r : RateArg) (duration : Int) : Except PyErr (Audio α) := silence r duration 1

end

end Zounds.Tones
