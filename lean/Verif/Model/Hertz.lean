import Verif.Model.Psychoacoustics
/-!
# Frequencies as Python numbers, comparing bands with scales, the quality factor

`zounds/spectral/frequencyscale.py`: `Hertz`, `Bark` and `Mel` are subclasses of `float`, so an instance carries two numbers: the value it was made
with as a float, which Python's own arithmetic and comparisons use, and its attribute `hz`.  Rounding, and numbers too large for a float, are not modelled.
-/

namespace Zounds.Hertz
open Zounds Zounds.Freq Zounds.Psycho

/-- A Python number: `int` or `float`. -/
inductive Raw where
  | int (i : Int)
  | flt (x : ℝ)

/-- The number. -/
noncomputable def Raw.val : Raw → ℝ
  | .int i => i
  | .flt x => x

/-- Python's `-x`. -/
noncomputable def Raw.neg : Raw → Raw
  | .int i => .int (-i)
  | .flt x => .flt (-x)

/-- Python's `x + y`: a float unless both are integers. -/
noncomputable def Raw.add : Raw → Raw → Raw
  | .int i, .int j => .int (i + j)
  | a, b => .flt (a.val + b.val)

/-- Python's `x - y`. -/
noncomputable def Raw.sub : Raw → Raw → Raw
  | .int i, .int j => .int (i - j)
  | a, b => .flt (a.val - b.val)

/-- Python's `x * y`. -/
noncomputable def Raw.mul : Raw → Raw → Raw
  | .int i, .int j => .int (i * j)
  | a, b => .flt (a.val * b.val)

/-- The classes of frequencyscale.py:6-24, 515-526 and 548-559. -/
inductive Cls where
  | hertz
  | bark
  | mel
  deriving DecidableEq

/-- An instance: its class, its value as a `float`, its attribute `hz`. -/
structure Hz where
  cls : Cls
  fval : ℝ
  hz : Raw

/-- A number or an instance of one of the classes. -/
inductive Num where
  | raw (r : Raw)
  | unit (h : Hz)

/-- `x.hz`, or `x` if it has none (frequencyscale.py:8-11, 17-20). -/
def Num.hz : Num → Raw
  | .raw r => r
  | .unit h => h.hz

/-- What Python's own float arithmetic sees. -/
noncomputable def Num.fval : Num → ℝ
  | .raw r => r.val
  | .unit h => h.fval

/-- `float(x)`: of an instance it is `Hertz.__float__` (frequencyscale.py:23-24), the attribute `hz`; `float` refuses (TypeError) the result of a `__float__` that is not a float. -/
noncomputable def toFloat : Num → Except PyErr ℝ
  | .raw r => .ok r.val
  | .unit h =>
    match h.hz with
    | .int _ => .error .typeError
    | .flt x => .ok x

/-- `Hertz(x)` (frequencyscale.py:6-11): `float.__new__` converts the argument with `float`, then `__init__` sets `hz`. -/
noncomputable def mkHertz (x : Num) : Except PyErr Hz :=
  match toFloat x with
  | .error e => .error e
  | .ok v => .ok ⟨.hertz, v, x.hz⟩

/-- `Bark(b)` for a number (frequencyscale.py:515-522): `float.__new__` is given `b` itself, `Hertz.__init__` the converted frequency. -/
noncomputable def mkBark (b : Raw) : Hz := ⟨.bark, b.val, .flt (barkToHz b.val)⟩

/-- `Mel(m)` for a number (frequencyscale.py:548-555). -/
noncomputable def mkMel (m : Raw) : Hz := ⟨.mel, m.val, .flt (melToHz m.val)⟩

/-- `-x` (frequencyscale.py:13-14 for instances). -/
noncomputable def minus : Num → Except PyErr Num
  | .raw r => .ok (.raw r.neg)
  | .unit h =>
    match mkHertz (.raw h.hz.neg) with
    | .error e => .error e
    | .ok g => .ok (.unit g)

/-- `x + y`: `Hertz.__add__` (frequencyscale.py:16-21) if the left side is an instance; if only the right one is, the `__radd__` inherited from `float`. -/
noncomputable def plus : Num → Num → Except PyErr Num
  | .raw a, .raw b => .ok (.raw (a.add b))
  | .raw a, .unit h => .ok (.raw (.flt (a.val + h.fval)))
  | .unit h, x =>
    match mkHertz (.raw (h.hz.add x.hz)) with
    | .error e => .error e
    | .ok g => .ok (.unit g)

/-- `x - y`: no class defines subtraction, so it is that of `float`. -/
noncomputable def subtract : Num → Num → Num
  | .raw a, .raw b => .raw (a.sub b)
  | x, y => .raw (.flt (x.fval - y.fval))

/-- `x * y`: likewise. -/
noncomputable def multiply : Num → Num → Num
  | .raw a, .raw b => .raw (a.mul b)
  | x, y => .raw (.flt (x.fval * y.fval))

/-- `x < y`: likewise. -/
def less (x y : Num) : Prop := x.fval < y.fval

/-- What a number is as the bound of a slice (`get_slice` asks for its class, frequencyscale.py:299-305). -/
noncomputable def bound : Num → Bnd ℝ
  | .raw (.int i) => .int i
  | .raw (.flt x) => .num x
  | .unit h =>
    match h.cls with
    | .hertz => .hz h.fval
    | _ => .perceptual h.fval h.hz.val

/-- `FrequencyBand.audible_range` (frequencyscale.py:85-87): the bounds as given; `FrequencyBand.__init__` compares them (48-53). `sps` is `samples_per_second`, of which
`nyquist` is half, rounded down (samplerate.py:98-100). -/
noncomputable def audibleRange (sps : Int) : Except PyErr (Hz × Hz) :=
  match mkHertz (.raw (.int 20)), mkHertz (.raw (.int (sps / 2))) with
  | .ok a, .ok b =>
    match Band.new a.fval b.fval with
    | .error e => .error e
    | .ok _ => .ok (a, b)
  | .error e, _ => .error e
  | _, .error e => .error e

/-! ## Comparing a band with something else -/

variable {α : Type} [Field α] [LinearOrder α]

/-- What a band may be compared with: a band, a scale (which has `start_hz` and `stop_hz` too, frequencyscale.py:249-261), or an object without these attributes. -/
inductive Obj (α : Type) where
  | band (b : Band α)
  | scale (s : Scale α)
  | other

/-- `FrequencyBand.__eq__` (frequencyscale.py:55-61): compares `start_hz` and `stop_hz`; other objects are equal only if they are the same, which they are not. -/
def bandEq (X : NumExt α) (b : Band α) : Obj α → Except PyErr Bool
  | .band c => .ok (b.eq c)
  | .scale s =>
    match s.band X with
    | .error e => .error e
    | .ok c => .ok (b.eq c)
  | .other => .ok false

/-- `scale == band`: `FrequencyScale.__eq__` and `GeometricScale.__eq__` (frequencyscale.py:276-280, 475-480) compare the classes first; `ExplicitScale.__eq__` (511-512) iterates over the
band, which is no iterable (TypeError). -/
def scaleEqBand (s : Scale α) (_b : Band α) : Except PyErr Bool :=
  match s with
  | .explicit _ => .error .typeError
  | _ => .ok false

/-- `FrequencyBand.__hash__` (frequencyscale.py:63-64): the tuple that is hashed. -/
def hashKey (b : Band α) : String × α × α := ("FrequencyBand", b.start, b.stop)

/-! ## The quality factor -/

/-- `FrequencyScale.Q` (frequencyscale.py:240-247) with `center_frequencies` (193-198) and `bandwidths` (200-205). -/
def quality (X : NumExt α) (s : Scale α) : Except PyErr (List α) :=
  match s.bands X with
  | .error e => .error e
  | .ok bs => .ok (List.zipWith (· / ·) (bs.map Band.center) (bs.map Band.bandwidth))

end Zounds.Hertz
