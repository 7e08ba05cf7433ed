import Verif.Model.TimeRequest
import Verif.Props.ContentRange
import Verif.Props.Time
import Verif.Props.OggVorbis

/-!
# Requests for a stretch of time (C278 - C280)
-/

namespace Zounds.TimeRequest

/-- The header `seconds=start-stop`. -/
def secondsHeader (start stop : List Char) : List Char := ['s', 'e', 'c', 'o', 'n', 'd', 's', '='] ++ start ++ '-' :: stop

/-- A number as it can stand before the dash. -/
def Number (s : List Char) : Prop := s ≠ [] ∧ '-' ∉ s ∧ '\n' ∉ s

theorem header_match (start stop : List Char) (h : Number start) (hs : '\n' ∉ stop) :
    Http.reMatch (secondsHeader start stop) = some (['s', 'e', 'c', 'o', 'n', 'd', 's'], start, stop) := by
  obtain ⟨h1, h2, h3⟩ := h
  refine (Http.C30_grammar _ _ _ _ ?_).mpr ⟨by simp [secondsHeader], by simp, by simp, h1, h2⟩
  simp [secondsHeader, h3, hs]

theorem range_time (pf : List Char → Option Rat) (start stop : List Char) (h : Number start) (hs : '\n' ∉ stop) (a : Rat) (ha : pf start = some a) :
    Http.range pf (some (secondsHeader start stop)) =
      .ok (.time (Http.truncRat (1000000000000 * a)) ((pf stop).map fun b => Http.truncRat (1000000000000 * (b - a)))) := by
  have hne : ¬ (['s', 'e', 'c', 'o', 'n', 'd', 's'] = ['b', 'y', 't', 'e', 's']) := by decide
  have hr : secondsHeader start stop ≠ [] := by simp [secondsHeader]
  unfold Http.range
  simp only [hr, if_false, header_match start stop h hs, hne, if_true, Http.timeSlice, ha]
  cases pf stop <;> rfl

/-- Truncating a quotient that is not negative, by a positive step. -/
theorem trunc_div (q : Rat) (hq : 0 ≤ q) (f : Nat) (hf : 0 < f) :
    ∃ i : Nat, (Http.truncRat q).tdiv f = (i : Int) ∧ (i : Rat) * f ≤ q ∧ q < (i + 1) * f := by
  obtain ⟨h0, h1, h2⟩ := (Http.truncRat_spec q).1 hq
  obtain ⟨m, hm⟩ := Int.eq_ofNat_of_zero_le h0
  rw [hm] at h1 h2 ⊢
  have e : ((m : Int)).tdiv (f : Int) = ((m / f : Nat) : Int) := by
    rw [Int.tdiv_eq_ediv_of_nonneg (by omega)]; simp
  refine ⟨m / f, e, ?_, ?_⟩
  · have : m / f * f ≤ m := Nat.div_mul_le_self m f
    have : ((m / f : Nat) : Rat) * f ≤ m := by exact_mod_cast this
    push_cast at h1
    linarith
  · have := Nat.lt_div_mul_add (a := m) hf
    have h3 : m + 1 ≤ (m / f + 1) * f := by rw [Nat.add_mul, Nat.one_mul]; omega
    have h4 : ((m + 1 : Nat) : Rat) ≤ (((m / f : Nat) : Rat) + 1) * f := by exact_mod_cast h3
    push_cast at h2 h4
    linarith

/-- Position `i` is the frame playing at time `t` (in picoseconds), for frames of `f` picoseconds; equally, a stretch of `t` holds `i` whole
frames. -/
def FrameAt (f : Nat) (t : Rat) (i : Nat) : Prop := (i : Rat) * f ≤ t ∧ t < (i + 1) * f

theorem frameAt_unique (f : Nat) (hf : 0 < f) (t : Rat) (i j : Nat) (h1 : FrameAt f t i) (h2 : FrameAt f t j) : i = j := by
  have hf' : (0 : Rat) < f := by exact_mod_cast hf
  have a : (i : Rat) < j + 1 := by
    have := lt_of_le_of_lt h1.1 h2.2
    exact lt_of_mul_lt_mul_right this hf'.le
  have b : (j : Rat) < i + 1 := by
    have := lt_of_le_of_lt h2.1 h1.2
    exact lt_of_mul_lt_mul_right this hf'.le
  have a' : i < j + 1 := by exact_mod_cast a
  have b' : j < i + 1 := by exact_mod_cast b
  omega

/-- **C278** (a stretch): `seconds=a-b` with `0 ≤ a ≤ b` is answered with status 206 and the frames from the one playing at `a` on, as many whole
frames as fit into `b - a`, fewer if the file ends; beyond the end of the file the request fails. -/
theorem C278_stretch {α : Type} (pf : List Char → Option Rat) (rate : Nat) (hr : 0 < rate) (hr2 : rate ≤ Ogg.sec) (frames : List α)
    (start stop : List Char) (hn : Number start) (hs : '\n' ∉ stop) (a b : Rat) (ha : pf start = some a) (hb : pf stop = some b) (h0 : 0 ≤ a) (hab : a ≤ b) :
    ∃ i n, FrameAt (Ogg.freq rate) (1000000000000 * a) i ∧ FrameAt (Ogg.freq rate) (1000000000000 * (b - a)) n ∧
      (i ≤ frames.length → ∃ r, getOgg pf rate frames (some (secondsHeader start stop)) = .ok (some r) ∧ r.status = 206 ∧
        r.body = (frames.drop i).take n) ∧
      (frames.length < i → getOgg pf rate frames (some (secondsHeader start stop)) = .error (.py .runtimeError)) := by
  have hf := Ogg.freq_pos rate hr hr2
  obtain ⟨i, hi, i1, i2⟩ := trunc_div (1000000000000 * a) (by linarith) (Ogg.freq rate) hf
  obtain ⟨n, hn', n1, n2⟩ := trunc_div (1000000000000 * (b - a)) (by linarith) (Ogg.freq rate) hf
  have hrange := range_time pf start stop hn hs a ha
  rw [hb] at hrange
  refine ⟨i, n, ⟨i1, i2⟩, ⟨n1, n2⟩, ?_, ?_⟩
  · intro hle
    have hex : excerpt (Ogg.freq rate) frames (Http.truncRat (1000000000000 * a)) (some (Http.truncRat (1000000000000 * (b - a)))) =
        .ok ((frames.drop i).take n) := by
      unfold excerpt
      simp only [hi, hn']
      rw [if_neg (by omega), if_neg (by omega)]
      simp
    refine ⟨⟨206, (frames.drop i).take n, Http.contentRangeTime (Http.truncRat (1000000000000 * a)) (some (Http.truncRat (1000000000000 * (b - a))))
      (oggTotal rate frames.length)⟩, ?_, rfl, rfl⟩
    unfold getOgg serveOgg
    simp [hrange, hex]
  · intro hlt
    have hex : excerpt (Ogg.freq rate) frames (Http.truncRat (1000000000000 * a)) (some (Http.truncRat (1000000000000 * (b - a)))) =
        .error .runtimeError := by
      unfold excerpt
      simp only [hi]
      exact if_pos (by omega)
    unfold getOgg serveOgg
    simp [hrange, hex]

/-- **C278** (to the end): `seconds=a-` is answered with everything from the frame playing at `a` on. -/
theorem C278_rest {α : Type} (pf : List Char → Option Rat) (rate : Nat) (hr : 0 < rate) (hr2 : rate ≤ Ogg.sec) (frames : List α)
    (start stop : List Char) (hn : Number start) (hs : '\n' ∉ stop) (a : Rat) (ha : pf start = some a) (hb : pf stop = none) (h0 : 0 ≤ a) :
    ∃ i, FrameAt (Ogg.freq rate) (1000000000000 * a) i ∧
      (i ≤ frames.length → ∃ r, getOgg pf rate frames (some (secondsHeader start stop)) = .ok (some r) ∧ r.body = frames.drop i ∧
        (r.status = 206 ↔ 1 ≤ 1000000000000 * a) ∧ (r.status = 200 ↔ 1000000000000 * a < 1)) ∧
      (frames.length < i → getOgg pf rate frames (some (secondsHeader start stop)) = .error (.py .runtimeError)) := by
  have hf := Ogg.freq_pos rate hr hr2
  obtain ⟨i, hi, i1, i2⟩ := trunc_div (1000000000000 * a) (by linarith) (Ogg.freq rate) hf
  have hrange := range_time pf start stop hn hs a ha
  rw [hb] at hrange
  refine ⟨i, ⟨i1, i2⟩, ?_, ?_⟩
  · intro hle
    have hex : excerpt (Ogg.freq rate) frames (Http.truncRat (1000000000000 * a)) none = .ok (frames.drop i) := by
      unfold excerpt
      simp only [hi]
      rw [if_neg (by omega), if_pos (by omega)]
      simp
    have hz : Http.truncRat (1000000000000 * a) = 0 ↔ 1000000000000 * a < 1 := by
      obtain ⟨z0, z1, z2⟩ := (Http.truncRat_spec (1000000000000 * a)).1 (by linarith)
      constructor
      · intro h; rw [h] at z2; simpa using z2
      · intro h
        have : (Http.truncRat (1000000000000 * a) : Rat) < 1 := by linarith
        have : Http.truncRat (1000000000000 * a) < 1 := by exact_mod_cast this
        omega
    refine ⟨⟨if Http.truncRat (1000000000000 * a) = 0 ∧ (none : Option Int) = none then 200 else 206, frames.drop i,
      Http.contentRangeTime (Http.truncRat (1000000000000 * a)) none (oggTotal rate frames.length)⟩, ?_, rfl, ?_⟩
    · unfold getOgg serveOgg
      simp only [hrange, Option.map_none, hex]
    · simp only [and_true, hz]
      constructor
      · split <;> simp_all
      · split <;> simp_all
  · intro hlt
    have hex : excerpt (Ogg.freq rate) frames (Http.truncRat (1000000000000 * a)) none = .error .runtimeError := by
      unfold excerpt
      simp only [hi]
      exact if_pos (by omega)
    unfold getOgg serveOgg
    simp only [hrange, Option.map_none, hex]

/-- **C278** (a player's requests): the stretch up to `b` and the stretch from `b` never have a frame in common and at most one frame lies
between them. -/
theorem C278_consecutive (f : Nat) (hf : 0 < f) (a b : Rat) (i n j : Nat)
    (hi : FrameAt f (1000000000000 * a) i) (hn : FrameAt f (1000000000000 * (b - a)) n) (hj : FrameAt f (1000000000000 * b) j) :
    i + n ≤ j ∧ j ≤ i + n + 1 := by
  have hf' : (0 : Rat) < f := by exact_mod_cast hf
  obtain ⟨i1, i2⟩ := hi
  obtain ⟨n1, n2⟩ := hn
  obtain ⟨j1, j2⟩ := hj
  constructor
  · have : ((i : Rat) + n) < j + 1 := by
      refine lt_of_mul_lt_mul_right (a := (f : Rat)) ?_ hf'.le
      nlinarith
    have : i + n < j + 1 := by exact_mod_cast this
    omega
  · have : (j : Rat) < i + n + 2 := by
      refine lt_of_mul_lt_mul_right (a := (f : Rat)) ?_ hf'.le
      nlinarith
    have : j < i + n + 2 := by exact_mod_cast this
    omega

example : ∃ i n j, FrameAt 1000000000000 (1000000000000 * 1) i ∧ FrameAt 1000000000000 (1000000000000 * (3 - 1)) n ∧
    FrameAt 1000000000000 (1000000000000 * 3) j ∧ i + n ≤ j ∧ j ≤ i + n + 1 := by
  have h1 : FrameAt 1000000000000 (1000000000000 * 1) 1 := by unfold FrameAt; norm_num
  have h2 : FrameAt 1000000000000 (1000000000000 * (3 - 1)) 2 := by unfold FrameAt; norm_num
  have h3 : FrameAt 1000000000000 (1000000000000 * 3) 3 := by unfold FrameAt; norm_num
  exact ⟨1, 2, 3, h1, h2, h3, C278_consecutive 1000000000000 (by decide) 1 3 1 2 3 h1 h2 h3⟩

/-- **C279** (when it holds): for times given to the picosecond, `0 ≤ a ≤ b`, `b ≠ 0`, the header of the answer names `a`, `b` and the length of the
file. -/
theorem C279_header {α : Type} (pf : List Char → Option Rat) (rate : Nat) (frames : List α) (start stop : List Char) (hn : Number start) (hs : '\n' ∉ stop)
    (a b : Int) (ha : pf start = some ((a : Rat) / 1000000000000)) (hb : pf stop = some ((b : Rat) / 1000000000000)) (hne : b ≠ 0) (r : Answer α)
    (h : getOgg pf rate frames (some (secondsHeader start stop)) = .ok (some r)) :
    r.contentRange = ((a : Rat) / 1000000000000, (b : Rat) / 1000000000000, (oggTotal rate frames.length : Rat) / 1000000000000) := by
  have hrange := (Http.C30_seconds pf (secondsHeader start stop) start stop a (by simp [secondsHeader]) (header_match start stop hn hs) ha).1 b hb
  unfold getOgg serveOgg at h
  simp only [hrange] at h
  cases hex : excerpt (Ogg.freq rate) frames a (some (b - a)) with
  | error e => rw [hex] at h; cases h
  | ok body =>
    rw [hex] at h
    cases h
    have := (Http.C30_seconds_content_range a (b - a) (oggTotal rate frames.length) (by omega)).1
    simp only [this]
    norm_num

/-- **C279**: the length of the file in the header is its number of frames over the rate, to the picosecond below. -/
theorem C279_total (rate n : Nat) (hr : 0 < rate) :
    oggTotal rate n * (rate : Int) ≤ 1000000000000 * n ∧ 1000000000000 * (n : Int) < (oggTotal rate n + 1) * (rate : Int) := by
  have h1 := Nat.div_mul_le_self (Ogg.sec * n) rate
  have h2 := Nat.lt_div_mul_add (a := Ogg.sec * n) hr
  have e : Ogg.sec = 1000000000000 := rfl
  have h3 : Ogg.sec * n < (Ogg.sec * n / rate + 1) * rate := by rw [Nat.add_mul, Nat.one_mul]; exact h2
  rw [e] at h1 h3
  unfold oggTotal
  rw [e]
  exact ⟨by exact_mod_cast h1, by exact_mod_cast h3⟩

example := C279_total 44100 88201 (by decide)

/-- **C279** (to the end): the header of the answer to `seconds=a-` names `a`, and the length of the file twice. -/
theorem C279_header_rest {α : Type} (pf : List Char → Option Rat) (rate : Nat) (frames : List α) (start stop : List Char) (hn : Number start) (hs : '\n' ∉ stop)
    (a : Int) (ha : pf start = some ((a : Rat) / 1000000000000)) (hb : pf stop = none) (r : Answer α)
    (h : getOgg pf rate frames (some (secondsHeader start stop)) = .ok (some r)) :
    r.contentRange = ((a : Rat) / 1000000000000, (oggTotal rate frames.length : Rat) / 1000000000000, (oggTotal rate frames.length : Rat) / 1000000000000) := by
  have hrange := (Http.C30_seconds pf (secondsHeader start stop) start stop a (by simp [secondsHeader]) (header_match start stop hn hs) ha).2 hb
  unfold getOgg serveOgg at h
  simp only [hrange] at h
  cases hex : excerpt (Ogg.freq rate) frames a none with
  | error e => rw [hex] at h; cases h
  | ok body =>
    rw [hex] at h
    cases h
    rfl

/-- **C279, refuted** (past the end): a request that runs past the end of the file is answered with what there is, labelled with an end later than the
length of the file. -/
theorem C279_past_end_refuted {α : Type} (pf : List Char → Option Rat) (rate : Nat) (hr : 0 < rate) (hr2 : rate ≤ Ogg.sec) (frames : List α)
    (start stop : List Char) (hn : Number start) (hs : '\n' ∉ stop) (a b : Int) (ha : pf start = some ((a : Rat) / 1000000000000))
    (hb : pf stop = some ((b : Rat) / 1000000000000)) (h0 : 0 ≤ a) (hin : a.toNat / Ogg.freq rate ≤ frames.length)
    (hlong : oggTotal rate frames.length < b) (hab : a ≤ b) :
    ∃ r, getOgg pf rate frames (some (secondsHeader start stop)) = .ok (some r) ∧ r.contentRange.2.1 > r.contentRange.2.2 := by
  have hb0 : b ≠ 0 := by
    have : 0 ≤ oggTotal rate frames.length := Int.natCast_nonneg _
    omega
  have hf := Ogg.freq_pos rate hr hr2
  have e1 : (1000000000000 : Rat) * ((a : Rat) / 1000000000000) = a := by field_simp
  have ha0 : (0 : Rat) ≤ a := by exact_mod_cast h0
  have hab' : (a : Rat) ≤ b := by exact_mod_cast hab
  obtain ⟨i, n, h1, -, h3, -⟩ := C278_stretch pf rate hr hr2 frames start stop hn hs _ _ ha hb (div_nonneg ha0 (by norm_num)) (by gcongr)
  rw [e1] at h1
  have hi : i = a.toNat / Ogg.freq rate := by
    refine frameAt_unique _ hf _ _ _ h1 ?_
    obtain ⟨m, rfl⟩ := Int.eq_ofNat_of_zero_le h0
    rw [show ((m : Int)).toNat = m from rfl]
    refine ⟨?_, ?_⟩
    · have : m / Ogg.freq rate * Ogg.freq rate ≤ m := Nat.div_mul_le_self _ _
      rw [show (((m : Int) : Rat)) = (m : Rat) from Int.cast_natCast m]
      exact_mod_cast this
    · have := Nat.lt_div_mul_add (a := m) hf
      have h3 : m < (m / Ogg.freq rate + 1) * Ogg.freq rate := by rw [Nat.add_mul, Nat.one_mul]; omega
      rw [show (((m : Int) : Rat)) = (m : Rat) from Int.cast_natCast m]
      exact_mod_cast h3
  obtain ⟨r, hr1, -, -⟩ := h3 (by omega)
  refine ⟨r, hr1, ?_⟩
  rw [C279_header pf rate frames start stop hn hs a b ha hb hb0 r hr1]
  have : (oggTotal rate frames.length : Rat) < b := by exact_mod_cast hlong
  simp only [gt_iff_lt]
  gcongr

/-- **C279, refuted** (reversed): a request whose end lies a frame or more before its start is answered with everything from the start on, labelled
with that end. -/
theorem C279_reversed_refuted {α : Type} (pf : List Char → Option Rat) (rate : Nat) (hr : 0 < rate) (hr2 : rate ≤ Ogg.sec) (frames : List α)
    (start stop : List Char) (hn : Number start) (hs : '\n' ∉ stop) (i : Nat) (hi : i ≤ frames.length) (b : Int) (hb0 : b ≠ 0)
    (ha : pf start = some (((i * Ogg.freq rate : Nat) : Int) / 1000000000000 : Rat)) (hb : pf stop = some ((b : Rat) / 1000000000000))
    (hab : b + Ogg.freq rate ≤ i * Ogg.freq rate) :
    ∃ r, getOgg pf rate frames (some (secondsHeader start stop)) = .ok (some r) ∧ r.body = frames.drop i ∧
      r.contentRange = (((i * Ogg.freq rate : Nat) : Rat) / 1000000000000, (b : Rat) / 1000000000000, (oggTotal rate frames.length : Rat) / 1000000000000) := by
  have hf := Ogg.freq_pos rate hr hr2
  have hrange := (Http.C30_seconds pf (secondsHeader start stop) start stop ((i * Ogg.freq rate : Nat) : Int) (by simp [secondsHeader]) (header_match start stop hn hs) ha).1 b hb
  have t1 : (((i * Ogg.freq rate : Nat) : Int)).tdiv (Ogg.freq rate : Int) = i := by
    rw [Int.tdiv_eq_ediv_of_nonneg (by omega)]
    rw [← Int.natCast_ediv, Nat.mul_div_cancel _ hf]
  have t2 : (b - ((i * Ogg.freq rate : Nat) : Int)).tdiv (Ogg.freq rate : Int) < 0 := by
    have hfi : (0 : Int) < (Ogg.freq rate : Int) := by exact_mod_cast hf
    have : -(((i * Ogg.freq rate : Nat) : Int) - b).tdiv (Ogg.freq rate : Int) ≤ -1 := by
      have h1 : (1 : Int) ≤ (((i * Ogg.freq rate : Nat) : Int) - b) / (Ogg.freq rate : Int) := by
        rw [Int.le_ediv_iff_mul_le hfi]
        push_cast
        omega
      rw [Int.tdiv_eq_ediv_of_nonneg (by push_cast; omega)]
      omega
    rw [← Int.neg_tdiv, Int.neg_sub] at this
    omega
  have hex : excerpt (Ogg.freq rate) frames ((i * Ogg.freq rate : Nat) : Int) (some (b - ((i * Ogg.freq rate : Nat) : Int))) = .ok (frames.drop i) := by
    unfold excerpt
    simp only [t1]
    rw [if_neg (by omega), if_pos t2]
    simp
  have hcase : ∃ r, getOgg pf rate frames (some (secondsHeader start stop)) = .ok (some r) ∧ r.body = frames.drop i := by
    unfold getOgg serveOgg
    simp only [hrange, hex]
    exact ⟨_, rfl, rfl⟩
  obtain ⟨r, h1, h2⟩ := hcase
  refine ⟨r, h1, h2, ?_⟩
  have := C279_header pf rate frames start stop hn hs _ b ha hb hb0 r h1
  simpa using this

/-- **C279, refuted** (nothing): the answer to `seconds=0-0` is empty, and labelled as the whole file. -/
theorem C279_empty_refuted {α : Type} (pf : List Char → Option Rat) (rate : Nat) (frames : List α) (start stop : List Char) (hn : Number start)
    (hs : '\n' ∉ stop) (ha : pf start = some 0) (hb : pf stop = some 0) :
    ∃ r, getOgg pf rate frames (some (secondsHeader start stop)) = .ok (some r) ∧ r.body = [] ∧
      r.contentRange = (0, (oggTotal rate frames.length : Rat) / 1000000000000, (oggTotal rate frames.length : Rat) / 1000000000000) := by
  have hrange := (Http.C30_seconds pf (secondsHeader start stop) start stop 0 (by simp [secondsHeader]) (header_match start stop hn hs) (by simpa using ha)).1 0
    (by simpa using hb)
  have hex : excerpt (Ogg.freq rate) frames 0 (some (0 - 0)) = .ok [] := by
    unfold excerpt
    simp
  unfold getOgg serveOgg
  simp only [hrange, hex]
  exact ⟨_, rfl, rfl, by simp [Http.contentRangeTime]⟩

/-- **C280** (a stretch of an array over time): drawn are exactly the rows that overlap the stretch (but for a row that begins within the last 1/200 of
its period before the end), status 206; the header names the stretch and the end of the last row. -/
theorem C280_array {α : Type} (pf : List Char → Option Rat) (td : Time.Dim) (hf : 0 < td.frequency) (rows : List α) (start stop : List Char)
    (hn : Number start) (hs : '\n' ∉ stop) (a b : Int) (ha : pf start = some ((a : Rat) / 1000000000000)) (hb : pf stop = some ((b : Rat) / 1000000000000))
    (h0 : 0 ≤ a) (hab : a ≤ b) (hb0 : b ≠ 0) :
    ∃ r, getArray pf td rows (some (secondsHeader start stop)) = .ok (some r) ∧ r.status = 206 ∧
      r.body = Props.pick rows (fun k => a < k * td.frequency + td.duration ∧ td.frequency < 200 * (b - k * td.frequency)) ∧
      r.contentRange = ((a : Rat) / 1000000000000, (b : Rat) / 1000000000000,
        ((rows.length * td.frequency + (td.duration - td.frequency) : Int) : Rat) / 1000000000000) := by
  have hrange := (Http.C30_seconds pf (secondsHeader start stop) start stop a (by simp [secondsHeader]) (header_match start stop hn hs) ha).1 b hb
  unfold getArray serveArray
  simp only [hrange]
  refine ⟨_, rfl, rfl, ?_, ?_⟩
  · simp only
    rw [Props.C04_timeslice_exact rows td a (b - a) hf h0 (by omega)]
    simp only [add_sub_cancel]
  · have := (Http.C30_seconds_content_range a (b - a) (Time.Dim.end_ { td with size := rows.length }) (by omega)).1
    simp only [this, add_sub_cancel]
    rfl

/-- **C280** (to the end): `seconds=a-` draws every row that reaches past `a`. -/
theorem C280_rest {α : Type} (pf : List Char → Option Rat) (td : Time.Dim) (hf : 0 < td.frequency) (hd : td.frequency ≤ td.duration) (rows : List α)
    (start stop : List Char) (hn : Number start) (hs : '\n' ∉ stop) (a : Int) (ha : pf start = some ((a : Rat) / 1000000000000)) (hb : pf stop = none) :
    ∃ r, getArray pf td rows (some (secondsHeader start stop)) = .ok (some r) ∧ r.status = 206 ∧
      r.body = Props.pick rows (fun k => a < k * td.frequency + td.duration) := by
  have hrange := (Http.C30_seconds pf (secondsHeader start stop) start stop a (by simp [secondsHeader]) (header_match start stop hn hs) ha).2 hb
  unfold getArray serveArray
  simp only [hrange]
  exact ⟨_, rfl, rfl, Props.C04_open_ended rows td a hf hd⟩

/-- **C280** (both): a header that asks for no stretch of time is not answered here but with stored bytes. -/
theorem C280_other {α : Type} (pf : List Char → Option Rat) (td : Time.Dim) (rate : Nat) (rows : List α) (header : Option (List Char)) (a b : Option Int)
    (h : Http.range pf header = .ok (.bytes a b)) : getArray pf td rows header = .ok none ∧ getOgg pf rate rows header = .ok none := by
  unfold getArray getOgg
  rw [h]
  exact ⟨rfl, rfl⟩

example := C280_other (fun _ => none) ⟨5, 8, 3⟩ 44100 [10, 20, 30] (some ['b', 'y', 't', 'e', 's', '=', '1', '-', '2']) (some 1) (some 2) (by decide +kernel)

/-- **C30** (a feature served as plain bytes, asked for by time): whatever the interval, AttributeError; a start that is no number is a ValueError. -/
theorem C30_seconds_bytes {α : Type} (pf : List Char → Option Rat) (file : List α) (start stop : List Char) (h1 : start ≠ []) (h2 : '-' ∉ start)
    (h3 : '\n' ∉ start) (hs : '\n' ∉ stop) :
    Http.getBytes pf file (some (secondsHeader start stop)) = .error (.py (if (pf start).isSome then .attributeError else .valueError)) := by
  have hm : Http.reMatch (secondsHeader start stop) = some (['s', 'e', 'c', 'o', 'n', 'd', 's'], start, stop) := by
    refine (Http.C30_grammar _ _ _ _ ?_).mpr ⟨by simp [secondsHeader], by simp, by simp, h1, h2⟩
    simp [secondsHeader, h3, hs]
  have hne : ¬ (['s', 'e', 'c', 'o', 'n', 'd', 's'] = ['b', 'y', 't', 'e', 's']) := by decide
  have hr : secondsHeader start stop ≠ [] := by simp [secondsHeader]
  have hrange : Http.range pf (some (secondsHeader start stop)) = Http.timeSlice pf start stop := by
    unfold Http.range; simp only [hr, if_false, hm, hne, if_true]
  unfold Http.getBytes
  rw [hrange]
  unfold Http.timeSlice
  cases pf start with
  | none => rfl
  | some a => rfl

example := C30_seconds_bytes (fun _ => none) [10, 20, 30] ['1'] ['2'] (by decide) (by decide) (by decide) (by decide)

/-- Decimal numbers of seconds, as far as the examples need them. -/
def demoFloat (s : List Char) : Option Rat := if s = ['0'] then some 0 else if s = ['1'] then some 1 else if s = ['9'] then some 9 else none

example : Number ['1'] ∧ demoFloat ['1'] = some (((1000000000000 : Int) : Rat) / 1000000000000) ∧
    (1000000000000 : Int).toNat / Ogg.freq 1 ≤ [10, 20].length ∧ oggTotal 1 2 < 9000000000000 := by
  refine ⟨by unfold Number; decide, ?_, by decide, by decide⟩
  have h1 : ¬ (['1'] = ['0']) := by decide
  unfold demoFloat
  rw [if_neg h1, if_pos rfl]
  norm_num

theorem demo_values : demoFloat ['1'] = some (((1000000000000 : Int) : Rat) / 1000000000000) ∧ demoFloat ['9'] = some (((9000000000000 : Int) : Rat) / 1000000000000) ∧
    demoFloat ['x'] = none ∧ demoFloat ['1'] = some 1 ∧ demoFloat ['9'] = some 9 := by
  have a0 : ¬ (['1'] = ['0']) := by decide
  have b0 : ¬ (['9'] = ['0']) := by decide
  have b1 : ¬ (['9'] = ['1']) := by decide
  refine ⟨?_, ?_, by decide, ?_, ?_⟩ <;> unfold demoFloat
  · rw [if_neg a0, if_pos rfl]; norm_num
  · rw [if_neg b0, if_neg b1, if_pos rfl]; norm_num
  · rw [if_neg a0, if_pos rfl]
  · rw [if_neg b0, if_neg b1, if_pos rfl]
theorem one_number : Number ['1'] := by unfold Number; decide
example := C278_stretch demoFloat 44100 (by decide) (by decide) [10, 20] ['1'] ['9'] one_number (by decide) 1 9 demo_values.2.2.2.1 demo_values.2.2.2.2 (by norm_num) (by norm_num)
example := C278_rest demoFloat 44100 (by decide) (by decide) [10, 20] ['1'] ['x'] one_number (by decide) 1 demo_values.2.2.2.1 demo_values.2.2.1 (by norm_num)
example := C280_array demoFloat ⟨1000000000000, 1000000000000, 3⟩ (by decide) [10, 20, 30] ['1'] ['9'] one_number (by decide) 1000000000000 9000000000000
  demo_values.1 demo_values.2.1 (by decide) (by decide) (by decide)
example := C280_rest demoFloat ⟨1000000000000, 1000000000000, 3⟩ (by decide) (by decide) [10, 20, 30] ['1'] ['x'] one_number (by decide) 1000000000000
  demo_values.1 demo_values.2.2.1
example : ∃ r : Answer Nat, getOgg demoFloat 1 [10, 20] (some (secondsHeader ['1'] ['9'])) = .ok (some r) ∧
    r.contentRange = (((1000000000000 : Int) : Rat) / 1000000000000, ((9000000000000 : Int) : Rat) / 1000000000000, (oggTotal 1 2 : Rat) / 1000000000000) := by
  obtain ⟨i, n, h1, _, h3⟩ := C278_stretch demoFloat 1 (by decide) (by decide) [10, 20] ['1'] ['9'] one_number (by decide) 1 9 demo_values.2.2.2.1 demo_values.2.2.2.2 (by norm_num) (by norm_num)
  have hi : i = 1 := frameAt_unique _ (by decide) _ _ _ h1 (by unfold FrameAt; norm_num [Ogg.freq, Ogg.sec])
  obtain ⟨r, hr, _⟩ := h3.1 (by rw [hi]; decide)
  exact ⟨r, hr, C279_header demoFloat 1 [10, 20] ['1'] ['9'] one_number (by decide) _ _ demo_values.1 demo_values.2.1 (by decide) r hr⟩
example : ∃ r : Answer Nat, getOgg demoFloat 1 [10, 20] (some (secondsHeader ['1'] ['x'])) = .ok (some r) ∧
    r.contentRange.1 = ((1000000000000 : Int) : Rat) / 1000000000000 := by
  obtain ⟨i, h1, h3⟩ := C278_rest demoFloat 1 (by decide) (by decide) [10, 20] ['1'] ['x'] one_number (by decide) 1 demo_values.2.2.2.1 demo_values.2.2.1 (by norm_num)
  have hi : i = 1 := frameAt_unique _ (by decide) _ _ _ h1 (by unfold FrameAt; norm_num [Ogg.freq, Ogg.sec])
  obtain ⟨r, hr, _⟩ := h3.1 (by rw [hi]; decide)
  exact ⟨r, hr, by rw [C279_header_rest demoFloat 1 [10, 20] ['1'] ['x'] one_number (by decide) _ demo_values.1 demo_values.2.2.1 r hr]⟩

end Zounds.TimeRequest
