import Mathlib.Tactic.Linarith
import Mathlib.Tactic.NormNum
import Mathlib.Tactic.Ring
import Mathlib.Tactic.FieldSimp
import Mathlib.Tactic.Positivity
import Verif.Model.FloatRange
import Verif.Lemmas.Float64
import Verif.Props.Float64
import Verif.Props.FloatTones
import Verif.Props.TimeRequest

namespace Zounds.FloatRange
open Zounds Zounds.Float64 Zounds.TimeRequest

/-- Frame `i` plays, or a stretch holds `i` whole frames, at some time less than `ε` picoseconds away from `t`. -/
def FrameNear (f : ℕ) (ε t : ℚ) (i : ℕ) : Prop := ∃ u : ℚ, |u - t| < ε ∧ FrameAt f u i

theorem trunc_of_nonneg (x : ℚ) (h : 0 ≤ x) : 0 ≤ trunc x ∧ ((trunc x : ℤ) : ℚ) ≤ x ∧ x < trunc x + 1 := by
  unfold trunc
  rw [if_neg (not_lt.2 h)]
  exact ⟨Int.floor_nonneg.2 h, Int.floor_le x, Int.lt_floor_add_one x⟩

/-- A whole number of picoseconds `s` close to `x` is divided into frames as some time close to `x`. -/
theorem near_of (f : ℕ) (hf : 0 < f) (x ε : ℚ) (s : ℤ) (h0 : 0 ≤ s) (h1 : (s : ℚ) < x + ε) (h2 : x - ε < s + 1) (hε : 1 ≤ ε) :
    ∃ i : ℕ, s.tdiv f = (i : ℤ) ∧ FrameNear f ε x i := by
  obtain ⟨m, rfl⟩ := Int.eq_ofNat_of_zero_le h0
  have e : ((m : ℤ)).tdiv (f : ℤ) = ((m / f : ℕ) : ℤ) := by
    rw [Int.tdiv_eq_ediv_of_nonneg (by omega)]; simp
  refine ⟨m / f, e, ?_⟩
  have a1 : (((m / f : ℕ) : ℚ)) * f ≤ m := by
    have : m / f * f ≤ m := Nat.div_mul_le_self m f
    exact_mod_cast this
  have a2 : (m : ℚ) + 1 ≤ (((m / f : ℕ) : ℚ) + 1) * f := by
    have : m + 1 ≤ (m / f + 1) * f := by
      have h := Nat.lt_mul_of_div_lt (Nat.lt_succ_self (m / f)) hf
      exact h
    exact_mod_cast this
  have h1' : (m : ℚ) < x + ε := by exact_mod_cast h1
  have h2' : x - ε < (m : ℚ) + 1 := by exact_mod_cast h2
  by_cases c : x - ε < m
  · exact ⟨m, by rw [abs_lt]; constructor <;> linarith, a1, by linarith⟩
  · rw [not_lt] at c
    refine ⟨(x - ε + (m + 1)) / 2, ?_, ?_, ?_⟩
    · rw [abs_lt]; constructor <;> linarith
    · linarith
    · linarith

theorem start_near (a : ℚ) (h0 : 0 ≤ a) (h1 : a ≤ 4096) :
    0 ≤ startOf a ∧ ((startOf a : ℤ) : ℚ) < 10 ^ 12 * a + 1 ∧ 10 ^ 12 * a - 1 < startOf a + 1 ∧ startOf a < 2 ^ 53 := by
  obtain ⟨l1, u1⟩ := fl64_bounds a h0
  have p0 : 0 ≤ fl64 a := fl64_nonneg a h0
  obtain ⟨l2, u2⟩ := fl64_bounds (10 ^ 12 * fl64 a) (by positivity)
  obtain ⟨t0, t1, t2⟩ := trunc_of_nonneg (fl64 (10 ^ 12 * fl64 a)) (fl64_nonneg _ (by positivity))
  have up : fl64 (10 ^ 12 * fl64 a) < 10 ^ 12 * a + 1 := by
    have : fl64 (10 ^ 12 * fl64 a) ≤ 10 ^ 12 * (a * (1 + 1 / 2 ^ 53)) * (1 + 1 / 2 ^ 53) := by
      refine le_trans u2 ?_
      have : 10 ^ 12 * fl64 a ≤ 10 ^ 12 * (a * (1 + 1 / 2 ^ 53)) := by linarith
      exact mul_le_mul_of_nonneg_right this (by norm_num)
    norm_num at this ⊢
    linarith
  have lo : 10 ^ 12 * a - 1 < fl64 (10 ^ 12 * fl64 a) := by
    have : 10 ^ 12 * (a * (1 - 1 / 2 ^ 53)) * (1 - 1 / 2 ^ 53) ≤ fl64 (10 ^ 12 * fl64 a) := by
      refine le_trans ?_ l2
      have : 10 ^ 12 * (a * (1 - 1 / 2 ^ 53)) ≤ 10 ^ 12 * fl64 a := by linarith
      exact mul_le_mul_of_nonneg_right this (by norm_num)
    norm_num at this ⊢
    linarith
  unfold startOf
  refine ⟨t0, by linarith, by linarith, ?_⟩
  have : ((trunc (fl64 (10 ^ 12 * fl64 a)) : ℤ) : ℚ) < 2 ^ 53 := by
    norm_num at up t1 ⊢
    linarith
  exact_mod_cast this

theorem fl64_mono (x y : ℚ) (h : x ≤ y) : fl64 x ≤ fl64 y := by
  by_contra hc
  rw [not_le] at hc
  -- `fl64 y < fl64 x`: each is a double
  by_cases c : x ≤ fl64 y
  · exact absurd (fl64_le x _ (fl64_double y) c) (not_le.2 hc)
  · rw [not_le] at c
    -- fl64 y < x ≤ y
    by_cases d : fl64 x ≤ y
    · exact absurd (fl64_ge y _ (fl64_double x) d) (not_le.2 hc)
    · rw [not_le] at d
      have n1 := fl64_nearest x (fl64 y) (fl64_double y)
      have n2 := fl64_nearest y (fl64 x) (fl64_double x)
      rw [abs_of_neg (by linarith), abs_of_pos (by linarith)] at n1
      rw [abs_of_pos (by linarith), abs_of_neg (by linarith)] at n2
      have : x = y := by linarith
      rw [this] at hc
      exact lt_irrefl _ hc

theorem duration_near (a b : ℚ) (h0 : 0 ≤ a) (hab : a ≤ b) (h1 : b ≤ 4096) :
    0 ≤ durationOf a b ∧ ((durationOf a b : ℤ) : ℚ) < 10 ^ 12 * (b - a) + 2 ∧ 10 ^ 12 * (b - a) - 2 < durationOf a b + 1 ∧ durationOf a b < 2 ^ 53 := by
  obtain ⟨la, ua⟩ := fl64_bounds a h0
  obtain ⟨lb, ub⟩ := fl64_bounds b (h0.trans hab)
  have hd : 0 ≤ fl64 b - fl64 a := sub_nonneg.2 (fl64_mono a b hab)
  obtain ⟨ld, ud⟩ := fl64_bounds _ hd
  have p0 : 0 ≤ fl64 (fl64 b - fl64 a) := fl64_nonneg _ hd
  obtain ⟨l2, u2⟩ := fl64_bounds (10 ^ 12 * fl64 (fl64 b - fl64 a)) (by positivity)
  obtain ⟨t0, t1, t2⟩ := trunc_of_nonneg (fl64 (10 ^ 12 * fl64 (fl64 b - fl64 a))) (fl64_nonneg _ (by positivity))
  obtain ⟨d, hdd⟩ : ∃ d, d = fl64 b - fl64 a := ⟨_, rfl⟩
  rw [← hdd] at ld ud p0 l2 u2 t0 t1 t2
  have du : d ≤ (b - a) + (a + b) / 2 ^ 53 := by rw [hdd]; norm_num at la ub ⊢; linarith
  have dl : (b - a) - (a + b) / 2 ^ 53 ≤ d := by rw [hdd]; norm_num at lb ua ⊢; linarith
  have up : fl64 (10 ^ 12 * fl64 d) < 10 ^ 12 * (b - a) + 2 := by
    have : fl64 (10 ^ 12 * fl64 d) ≤ 10 ^ 12 * (d * (1 + 1 / 2 ^ 53)) * (1 + 1 / 2 ^ 53) := by
      refine le_trans u2 ?_
      have : 10 ^ 12 * fl64 d ≤ 10 ^ 12 * (d * (1 + 1 / 2 ^ 53)) := by linarith
      exact mul_le_mul_of_nonneg_right this (by norm_num)
    norm_num at this du ⊢
    linarith
  have lo : 10 ^ 12 * (b - a) - 2 < fl64 (10 ^ 12 * fl64 d) := by
    have : 10 ^ 12 * (d * (1 - 1 / 2 ^ 53)) * (1 - 1 / 2 ^ 53) ≤ fl64 (10 ^ 12 * fl64 d) := by
      refine le_trans ?_ l2
      have : 10 ^ 12 * (d * (1 - 1 / 2 ^ 53)) ≤ 10 ^ 12 * fl64 d := by linarith
      exact mul_le_mul_of_nonneg_right this (by norm_num)
    norm_num at this dl ⊢
    linarith
  unfold durationOf
  rw [← hdd]
  refine ⟨t0, by linarith, by linarith, ?_⟩
  have : ((trunc (fl64 (10 ^ 12 * fl64 d)) : ℤ) : ℚ) < 2 ^ 53 := by
    norm_num at up t1 ⊢
    linarith
  exact_mod_cast this

theorem range_time (dec : List Char → Option ℚ) (start stop : List Char) (hn : Number start) (hs : '\n' ∉ stop) (a : ℚ) (ha : dec start = some a) :
    range dec (some (secondsHeader start stop)) = .ok (.time (startOf a) ((dec stop).map (durationOf a))) := by
  unfold range
  simp only [header_match start stop hn hs]
  rw [if_neg (by simp [secondsHeader]), if_neg (by simp)]
  simp only [if_true]
  unfold timeSlice
  simp only [ha]
  cases dec stop <;> rfl

theorem freq_le (rate : ℕ) : ((Ogg.freq rate : ℕ) : ℤ) ≤ 2 ^ 53 := by
  have : Ogg.freq rate ≤ Ogg.sec := Nat.div_le_self _ _
  have h : Ogg.sec = 1000000000000 := rfl
  omega

theorem count_eq (s : ℤ) (rate : ℕ) (hr : 0 < rate) (hr2 : rate ≤ Ogg.sec) (h0 : 0 ≤ s) (h : s < 2 ^ 53) : sampleCount s (Ogg.freq rate) = s.tdiv (Ogg.freq rate) := by
  have hf := Ogg.freq_pos rate hr hr2
  exact C319_count s _ (by rw [abs_of_nonneg h0]; exact h) (by exact_mod_cast hf) (freq_le rate)

/-- **C324** (a stretch): `seconds=a-b` with `0 ≤ a ≤ b`, `b` at most 4096 s, is answered with status 206 and the frames from the one playing less than a picosecond
away from `a` on, as many as fit into a stretch less than two picoseconds off `b - a`. -/
theorem C324_stretch {α : Type} (dec : List Char → Option ℚ) (rate : ℕ) (hr : 0 < rate) (hr2 : rate ≤ Ogg.sec) (frames : List α)
    (start stop : List Char) (hn : Number start) (hs : '\n' ∉ stop) (a b : ℚ) (ha : dec start = some a) (hb : dec stop = some b) (h0 : 0 ≤ a) (hab : a ≤ b)
    (h1 : b ≤ 4096) :
    ∃ i n, FrameNear (Ogg.freq rate) 1 (10 ^ 12 * a) i ∧ FrameNear (Ogg.freq rate) 2 (10 ^ 12 * (b - a)) n ∧
      (i ≤ frames.length → getOgg dec rate frames (some (secondsHeader start stop)) = .ok (some (206, (frames.drop i).take n))) ∧
      (frames.length < i → getOgg dec rate frames (some (secondsHeader start stop)) = .error (.py .runtimeError)) := by
  have hf := Ogg.freq_pos rate hr hr2
  obtain ⟨s0, s1, s2, s3⟩ := start_near a h0 (hab.trans h1)
  obtain ⟨d0, d1, d2, d3⟩ := duration_near a b h0 hab h1
  obtain ⟨i, hi, ni⟩ := near_of _ hf _ 1 _ s0 s1 s2 (by norm_num)
  obtain ⟨n, hn', nn⟩ := near_of _ hf _ 2 _ d0 d1 d2 (by norm_num)
  have hrange := range_time dec start stop hn hs a ha
  rw [hb, Option.map_some] at hrange
  have ei := count_eq _ rate hr hr2 s0 s3
  have en := count_eq _ rate hr hr2 d0 d3
  refine ⟨i, n, ni, nn, ?_, ?_⟩
  · intro hle
    have hex : excerpt (Ogg.freq rate) frames (startOf a) (some (durationOf a b)) = .ok ((frames.drop i).take n) := by
      unfold excerpt
      simp only [ei, en, hi, hn']
      rw [if_neg (by omega), if_neg (by omega)]
      simp
    unfold getOgg
    simp [hrange, hex]
  · intro hlt
    have hex : excerpt (Ogg.freq rate) frames (startOf a) (some (durationOf a b)) = .error .runtimeError := by
      unfold excerpt
      simp only [ei, hi]
      exact if_pos (by omega)
    unfold getOgg
    simp [hrange, hex]

/-- **C324** (to the end): `seconds=a-` is answered with everything from the frame playing less than a picosecond away from `a` on. -/
theorem C324_rest {α : Type} (dec : List Char → Option ℚ) (rate : ℕ) (hr : 0 < rate) (hr2 : rate ≤ Ogg.sec) (frames : List α)
    (start stop : List Char) (hn : Number start) (hs : '\n' ∉ stop) (a : ℚ) (ha : dec start = some a) (hb : dec stop = none) (h0 : 0 ≤ a) (h1 : a ≤ 4096) :
    ∃ i, FrameNear (Ogg.freq rate) 1 (10 ^ 12 * a) i ∧
      (i ≤ frames.length → ∃ status, getOgg dec rate frames (some (secondsHeader start stop)) = .ok (some (status, frames.drop i)) ∧
        (a = 0 → status = 200) ∧ (2 ≤ 10 ^ 12 * a → status = 206)) ∧
      (frames.length < i → getOgg dec rate frames (some (secondsHeader start stop)) = .error (.py .runtimeError)) := by
  have hf := Ogg.freq_pos rate hr hr2
  obtain ⟨s0, s1, s2, s3⟩ := start_near a h0 h1
  obtain ⟨i, hi, ni⟩ := near_of _ hf _ 1 _ s0 s1 s2 (by norm_num)
  have hrange := range_time dec start stop hn hs a ha
  rw [hb, Option.map_none] at hrange
  have ei := count_eq _ rate hr hr2 s0 s3
  refine ⟨i, ni, ?_, ?_⟩
  · intro hle
    have hex : excerpt (Ogg.freq rate) frames (startOf a) none = .ok (frames.drop i) := by
      unfold excerpt
      simp only [ei, hi]
      rw [if_neg (by omega), if_pos (by omega)]
      simp
    refine ⟨if startOf a = 0 then 200 else 206, ?_, ?_, ?_⟩
    · unfold getOgg
      simp [hrange, hex]
    · intro h
      refine if_pos ?_
      rw [h] at s1
      have : ((startOf a : ℤ) : ℚ) < 1 := by rw [h]; linarith
      have : startOf a < 1 := by exact_mod_cast this
      omega
    · intro h
      refine if_neg ?_
      intro h'
      rw [h'] at s2
      norm_num at s2 h
      linarith
  · intro hlt
    have hex : excerpt (Ogg.freq rate) frames (startOf a) none = .error .runtimeError := by
      unfold excerpt
      simp only [ei, hi]
      exact if_pos (by omega)
    unfold getOgg
    simp [hrange, hex]

/-- **C324** (at most one frame off): frames last more than two picoseconds, so the frame found is the right one or a neighbour, and it is the right one unless a frame
starts within `ε` of the time asked for. -/
theorem C324_off_by_one (f : ℕ) (ε t : ℚ) (i j : ℕ) (hf : ε ≤ f) (hf0 : 0 < f) (hi : FrameNear f ε t i) (hj : FrameAt f t j) :
    (i ≤ j + 1 ∧ j ≤ i + 1) ∧ (i ≠ j → ∃ k : ℕ, |(k : ℚ) * f - t| < ε) := by
  obtain ⟨u, hu, u1, u2⟩ := hi
  obtain ⟨j1, j2⟩ := hj
  rw [abs_lt] at hu
  have hf' : (0 : ℚ) < f := by exact_mod_cast hf0
  have a1 : i ≤ j + 1 := by
    have : (i : ℚ) < j + 2 := by
      have : (i : ℚ) * f < (j + 2) * f := by linarith
      exact lt_of_mul_lt_mul_right this hf'.le
    have : i < j + 2 := by exact_mod_cast this
    omega
  have a2 : j ≤ i + 1 := by
    have : (j : ℚ) < i + 2 := by
      have : (j : ℚ) * f < (i + 2) * f := by linarith
      exact lt_of_mul_lt_mul_right this hf'.le
    have : j < i + 2 := by exact_mod_cast this
    omega
  refine ⟨⟨a1, a2⟩, fun hne => ?_⟩
  rcases Nat.lt_or_gt_of_ne hne with h | h
  · have e : j = i + 1 := by omega
    refine ⟨j, ?_⟩
    rw [e] at j1 ⊢
    push_cast at j1 ⊢
    rw [abs_lt]; constructor <;> linarith
  · have e : i = j + 1 := by omega
    refine ⟨i, ?_⟩
    rw [e] at u1 ⊢
    push_cast at u1 ⊢
    rw [abs_lt]; constructor <;> linarith

example := C324_off_by_one 10 1 (199 / 10) 2 1 (by norm_num) (by norm_num) ⟨20, by norm_num, by unfold FrameAt; norm_num⟩ (by unfold FrameAt; norm_num)

/-- A 4096th of a second is a whole number of picoseconds, and a double. -/
theorem exact_4096 (p : ℕ) (c : ℤ) (hc : c = 244140625) (h : p ≤ 4096 * 4096) :
    fl64 ((p : ℚ) / 4096) = p / 4096 ∧ 10 ^ 12 * ((p : ℚ) / 4096) = ((p * c : ℤ) : ℚ) ∧ fl64 ((p * c : ℤ) : ℚ) = ((p * c : ℤ) : ℚ) ∧ 0 ≤ p * c ∧ p * c < 2 ^ 53 := by
  have hp : (p : ℤ) * c < 2 ^ 53 := by subst hc; omega
  have hp0 : 0 ≤ (p : ℤ) * c := by subst hc; positivity
  refine ⟨?_, ?_, ?_, hp0, hp⟩
  · apply fl64_self
    refine ⟨p, -12, ?_, ?_⟩
    · rw [abs_of_nonneg (by omega)]; omega
    · rw [show (2 : ℚ) ^ (-12 : ℤ) = 1 / 4096 by norm_num]; push_cast; ring
  · rw [hc]; push_cast; ring
  · apply fl64_int
    rw [abs_of_nonneg hp0]
    exact hp.le

theorem trunc_int (k : ℤ) : trunc (k : ℚ) = k := by
  unfold trunc
  split
  · exact Int.ceil_intCast k
  · exact Int.floor_intCast k

theorem truncRat_int (k : ℤ) (h : 0 ≤ k) : Http.truncRat (k : ℚ) = k := by
  unfold Http.truncRat
  rw [if_pos (by exact_mod_cast h)]
  exact Int.floor_intCast (R := ℚ) k

/-- **C324** (exact): for times that are whole seconds, halves, quarters, ..., 4096ths of a second the answer is that of exact arithmetic (C278). -/
theorem C324_exact {α : Type} (dec : List Char → Option ℚ) (rate : ℕ) (hr : 0 < rate) (hr2 : rate ≤ Ogg.sec) (frames : List α)
    (start stop : List Char) (hn : Number start) (hs : '\n' ∉ stop) (p q : ℕ) (ha : dec start = some ((p : ℚ) / 4096)) (hb : dec stop = some ((q : ℚ) / 4096))
    (hpq : p ≤ q) (hq : q ≤ 4096 * 4096) :
    getOgg dec rate frames (some (secondsHeader start stop)) =
      (TimeRequest.getOgg dec rate frames (some (secondsHeader start stop))).map (Option.map fun r => (r.status, r.body)) := by
  obtain ⟨c, hc⟩ : ∃ c : ℤ, c = 244140625 := ⟨_, rfl⟩
  obtain ⟨d, hd⟩ : ∃ d : ℕ, d = q - p := ⟨_, rfl⟩
  obtain ⟨p1, p2, p3, p4, p5⟩ := exact_4096 p c hc (hpq.trans hq)
  obtain ⟨q1, _⟩ := exact_4096 q c hc hq
  obtain ⟨d1, d2, d3, d4, d5⟩ := exact_4096 d c hc (by omega)
  have hsub : (q : ℚ) / 4096 - p / 4096 = (d : ℚ) / 4096 := by
    rw [hd, Nat.cast_sub hpq]; ring
  have es : startOf ((p : ℚ) / 4096) = p * c := by
    unfold startOf
    rw [p1, p2, p3, trunc_int]
  have ed : durationOf ((p : ℚ) / 4096) ((q : ℚ) / 4096) = d * c := by
    unfold durationOf
    rw [p1, q1, hsub, d1, d2, d3, trunc_int]
  have e12 : (1000000000000 : ℚ) = 10 ^ 12 := by norm_num
  have r1 := range_time dec start stop hn hs _ ha
  rw [hb, Option.map_some, es, ed] at r1
  have r2 := TimeRequest.range_time dec start stop hn hs _ ha
  rw [hb, Option.map_some, hsub, e12, p2, d2, truncRat_int _ p4, truncRat_int _ d4] at r2
  have c1 := count_eq (p * c) rate hr hr2 p4 p5
  have c2 := count_eq (d * c) rate hr hr2 d4 d5
  have hex : excerpt (Ogg.freq rate) frames (p * c) (some (d * c)) = TimeRequest.excerpt (Ogg.freq rate) frames (p * c) (some (d * c)) := by
    unfold excerpt TimeRequest.excerpt
    simp only [c1, c2]
  unfold getOgg TimeRequest.getOgg TimeRequest.serveOgg
  simp only [r1, r2, hex]
  cases TimeRequest.excerpt (Ogg.freq rate) frames (p * c) (some (d * c)) <;> simp [Except.map]

/-- The answer, given the numbers. -/
theorem answer_of {α : Type} (dec : List Char → Option ℚ) (rate : ℕ) (hr : 0 < rate) (hr2 : rate ≤ Ogg.sec) (frames : List α) (start stop : List Char)
    (hn : Number start) (hs : '\n' ∉ stop) (a b : ℚ) (ha : dec start = some a) (hb : dec stop = some b) (s d : ℤ) (i n f : ℕ) (hf : Ogg.freq rate = f) (h0 : 0 ≤ a)
    (hab : a ≤ b) (h4 : b ≤ 4096) (h1 : startOf a = s) (h2 : durationOf a b = d) (hi : s.tdiv f = i) (hn' : d.tdiv f = n) (hl : i ≤ frames.length) :
    getOgg dec rate frames (some (secondsHeader start stop)) = .ok (some (206, (frames.drop i).take n)) := by
  obtain ⟨s0, _, _, s3⟩ := start_near a h0 (hab.trans h4)
  obtain ⟨d0, _, _, d3⟩ := duration_near a b h0 hab h4
  have r1 := range_time dec start stop hn hs _ ha
  rw [hb, Option.map_some] at r1
  have c1 := count_eq _ rate hr hr2 s0 s3
  have c2 := count_eq _ rate hr hr2 d0 d3
  rw [hf, h1, hi] at c1
  rw [hf, h2, hn'] at c2
  rw [h1, h2] at r1
  unfold getOgg excerpt
  simp only [r1, hf, c1, c2]
  rw [if_neg (by omega), if_neg (by omega)]
  simp

theorem fl64_of_even (x : ℚ) (m e : ℤ) (h1 : 2 ^ (e + 52) ≤ |x|) (h2 : |x| < 2 ^ (e + 53)) (h3 : |x / 2 ^ e - m| ≤ 1 / 2) (hm : m % 2 = 0) : fl64 x = m * 2 ^ e := by
  rw [fl64_binade x (e + 52) h1 (by rw [show e + 52 + 1 = e + 53 by ring]; exact h2), show e + 52 - 52 = e by ring]
  rw [rint_unique _ m h3 (fun _ => hm)]

theorem rest_of {α : Type} (dec : List Char → Option ℚ) (rate : ℕ) (hr : 0 < rate) (hr2 : rate ≤ Ogg.sec) (frames : List α) (start stop : List Char)
    (hn : Number start) (hs : '\n' ∉ stop) (a : ℚ) (ha : dec start = some a) (hb : dec stop = none) (s : ℤ) (i f : ℕ) (hf : Ogg.freq rate = f) (h0 : 0 ≤ a)
    (h4 : a ≤ 4096) (h1 : startOf a = s) (hi : s.tdiv f = i) (hs0 : s ≠ 0) (hl : i ≤ frames.length) :
    getOgg dec rate frames (some (secondsHeader start stop)) = .ok (some (206, frames.drop i)) := by
  obtain ⟨s0, _, _, s3⟩ := start_near a h0 h4
  have r1 := range_time dec start stop hn hs _ ha
  rw [hb, Option.map_none] at r1
  have c1 := count_eq _ rate hr hr2 s0 s3
  rw [hf, h1, hi] at c1
  rw [h1] at r1
  unfold getOgg excerpt
  simp only [r1, hf, c1]
  rw [if_neg (by omega), if_pos (by omega)]
  simp [hs0]

theorem start_2_01 : startOf (201 / 100) = 2009999999999 := by
  unfold startOf
  rw [fl64_of (201 / 100) 4526117625507348 (-51) (by norm_num) (by norm_num) (by rw [abs_lt]; norm_num)]
  rw [fl64_of _ 8232959999999999 (-12) (by norm_num) (by norm_num) (by rw [abs_lt]; norm_num)]
  unfold trunc
  rw [if_neg (by norm_num), Int.floor_eq_iff]; norm_num

theorem duration_1 : durationOf (201 / 100) (301 / 100) = 1000000000000 := by
  unfold durationOf
  rw [fl64_of (201 / 100) 4526117625507348 (-51) (by norm_num) (by norm_num) (by rw [abs_lt]; norm_num)]
  rw [fl64_of (301 / 100) 6777917439192596 (-51) (by norm_num) (by norm_num) (by rw [abs_lt]; norm_num)]
  rw [fl64_of (((6777917439192596 : ℤ) : ℚ) * 2 ^ (-51 : ℤ) - ((4526117625507348 : ℤ) : ℚ) * 2 ^ (-51 : ℤ)) 4503599627370496 (-52) (by norm_num) (by norm_num) (by rw [abs_lt]; norm_num)]
  rw [fl64_of _ 8192000000000000 (-13) (by norm_num) (by norm_num) (by rw [abs_lt]; norm_num)]
  unfold trunc
  rw [if_neg (by norm_num), Int.floor_eq_iff]; norm_num

/-- Refuted: of a 16 kHz sound `seconds=2.01-3.01` is answered with frames 32159 to 48158 instead of 32160 to 48159: it starts and ends one frame early. -/
theorem C324_refuted {α : Type} (dec : List Char → Option ℚ) (frames : List α) (start stop : List Char) (hn : Number start) (hs : '\n' ∉ stop)
    (ha : dec start = some (201 / 100)) (hb : dec stop = some (301 / 100)) (hl : 48160 ≤ frames.length) :
    getOgg dec 16000 frames (some (secondsHeader start stop)) = .ok (some (206, (frames.drop 32159).take 16000)) ∧
    ∃ r, TimeRequest.getOgg dec 16000 frames (some (secondsHeader start stop)) = .ok (some r) ∧ r.body = (frames.drop 32160).take 16000 := by
  have hf : Ogg.freq 16000 = 62500000 := by decide
  constructor
  · exact answer_of dec 16000 (by norm_num) (by decide) frames start stop hn hs _ _ ha hb _ _ 32159 16000 62500000 hf (by norm_num) (by norm_num) (by norm_num) start_2_01 duration_1
      (by rw [Int.tdiv_eq_ediv_of_nonneg (by norm_num)]; norm_num) (by rw [Int.tdiv_eq_ediv_of_nonneg (by norm_num)]; norm_num) (by omega)
  · obtain ⟨i, n, hi, hn', hle, _⟩ := C278_stretch dec 16000 (by norm_num) (by decide) frames start stop hn hs _ _ ha hb (by norm_num) (by norm_num)
    have ei : i = 32160 := frameAt_unique _ (by rw [hf]; norm_num) _ _ _ hi (by unfold FrameAt; rw [hf]; norm_num)
    have en : n = 16000 := frameAt_unique _ (by rw [hf]; norm_num) _ _ _ hn' (by unfold FrameAt; rw [hf]; norm_num)
    subst ei en
    obtain ⟨r, hr, _, hb'⟩ := hle (by omega)
    exact ⟨r, hr, hb'⟩

/-- **C324** (a player's requests): of the stretch up to `b` and the stretch from `b` on at most one frame is sent twice, and at most two frames lie between them. -/
theorem C324_consecutive (f : ℕ) (hf : 4 ≤ f) (a b : ℚ) (i n j : ℕ) (hi : FrameNear f 1 (10 ^ 12 * a) i) (hn : FrameNear f 2 (10 ^ 12 * (b - a)) n)
    (hj : FrameNear f 1 (10 ^ 12 * b) j) : i + n ≤ j + 1 ∧ j ≤ i + n + 2 := by
  obtain ⟨u, hu, u1, u2⟩ := hi
  obtain ⟨v, hv, v1, v2⟩ := hn
  obtain ⟨w, hw, w1, w2⟩ := hj
  rw [abs_lt] at hu hv hw
  have hf' : (4 : ℚ) ≤ f := by exact_mod_cast hf
  have f0 : (0 : ℚ) ≤ f := by linarith
  have k1 : ((i + n : ℕ) : ℚ) * f < ((j + 2 : ℕ) : ℚ) * f := by push_cast; linarith [hu.2, hv.2, hw.1]
  have k2 : ((j : ℕ) : ℚ) * f < ((i + n + 3 : ℕ) : ℚ) * f := by push_cast; linarith [hu.1, hv.1, hw.2]
  have l1 : i + n < j + 2 := by exact_mod_cast lt_of_mul_lt_mul_right k1 f0
  have l2 : j < i + n + 3 := by exact_mod_cast lt_of_mul_lt_mul_right k2 f0
  omega

example := C324_consecutive 1000 (by norm_num) (1 / 10 ^ 9) (5 / 10 ^ 9) 1 4 5 ⟨1000, by norm_num, by unfold FrameAt; norm_num⟩ ⟨4000, by norm_num, by unfold FrameAt; norm_num⟩ ⟨5000, by norm_num, by unfold FrameAt; norm_num⟩

theorem start_3_03 : startOf (303 / 100) = 3030000000000 := by
  unfold startOf
  rw [fl64_of (303 / 100) 6822953435466301 (-51) (by norm_num) (by norm_num) (by rw [abs_lt]; norm_num)]
  rw [fl64_of _ 6205440000000000 (-11) (by norm_num) (by norm_num) (by rw [abs_lt]; norm_num)]
  unfold trunc
  rw [if_neg (by norm_num), Int.floor_eq_iff]; norm_num

theorem start_8_03 : startOf (803 / 100) = 8029999999999 := by
  unfold startOf
  rw [fl64_of (803 / 100) 4520488125973135 (-49) (by norm_num) (by norm_num) (by rw [abs_lt]; norm_num)]
  rw [fl64_of _ 8222719999999999 (-10) (by norm_num) (by norm_num) (by rw [abs_lt]; norm_num)]
  unfold trunc
  rw [if_neg (by norm_num), Int.floor_eq_iff]; norm_num

theorem duration_5 : durationOf (303 / 100) (803 / 100) = 5000000000000 := by
  unfold durationOf
  rw [fl64_of (303 / 100) 6822953435466301 (-51) (by norm_num) (by norm_num) (by rw [abs_lt]; norm_num)]
  rw [fl64_of (803 / 100) 4520488125973135 (-49) (by norm_num) (by norm_num) (by rw [abs_lt]; norm_num)]
  rw [fl64_of_even (((4520488125973135 : ℤ) : ℚ) * 2 ^ (-49 : ℤ) - ((6822953435466301 : ℤ) : ℚ) * 2 ^ (-51 : ℤ)) 5629499534213120 (-50) (by norm_num) (by norm_num) (by rw [abs_le]; norm_num) (by norm_num)]
  rw [fl64_of _ 5120000000000000 (-10) (by norm_num) (by norm_num) (by rw [abs_lt]; norm_num)]
  unfold trunc
  rw [if_neg (by norm_num), Int.floor_eq_iff]; norm_num

/-- Refuted: that consecutive requests never repeat a frame.  Of a 16 kHz sound `seconds=3.03-8.03` is answered with frames 48480 to 128479 and `seconds=8.03-` with the
frames from 128479 on. -/
theorem C324_repeat_refuted {α : Type} (dec : List Char → Option ℚ) (frames : List α) (start stop nothing : List Char) (hn : Number start) (hs : Number stop)
    (hno : '\n' ∉ nothing) (ha : dec start = some (303 / 100)) (hb : dec stop = some (803 / 100)) (hno' : dec nothing = none) (hl : 128480 ≤ frames.length) :
    getOgg dec 16000 frames (some (secondsHeader start stop)) = .ok (some (206, (frames.drop 48480).take 80000)) ∧
    getOgg dec 16000 frames (some (secondsHeader stop nothing)) = .ok (some (206, frames.drop 128479)) := by
  have hf : Ogg.freq 16000 = 62500000 := by decide
  constructor
  · exact answer_of dec 16000 (by norm_num) (by decide) frames start stop hn hs.2.2 _ _ ha hb _ _ 48480 80000 62500000 hf (by norm_num) (by norm_num) (by norm_num) start_3_03
      duration_5 (by rw [Int.tdiv_eq_ediv_of_nonneg (by norm_num)]; norm_num) (by rw [Int.tdiv_eq_ediv_of_nonneg (by norm_num)]; norm_num) (by omega)
  · exact rest_of dec 16000 (by norm_num) (by decide) frames stop nothing hs hno _ hb hno' _ 128479 62500000 hf (by norm_num) (by norm_num) start_8_03
      (by rw [Int.tdiv_eq_ediv_of_nonneg (by norm_num)]; norm_num) (by norm_num) (by omega)

example : ∃ i n, FrameNear (Ogg.freq 44100) 1 (10 ^ 12 * (1 / 10)) i ∧ FrameNear (Ogg.freq 44100) 2 (10 ^ 12 * (3 / 10 - 1 / 10)) n :=
  have h := C324_stretch (α := ℕ) (fun s => if s = ['0', '.', '1'] then some (1 / 10) else some (3 / 10)) 44100 (by norm_num) (by decide) []
    ['0', '.', '1'] ['0', '.', '3'] ⟨by simp, by decide, by decide⟩ (by decide) (1 / 10) (3 / 10) (by simp) (by simp) (by norm_num) (by norm_num) (by norm_num)
  let ⟨i, n, h1, h2, _⟩ := h
  ⟨i, n, h1, h2⟩

example {α : Type} (frames : List α) :
    getOgg (fun s => if s = ['1', '.', '5'] then some (((6144 : ℕ) : ℚ) / 4096) else some (((8192 : ℕ) : ℚ) / 4096)) 44100 frames (some (secondsHeader ['1', '.', '5'] ['2'])) =
      (TimeRequest.getOgg (fun s => if s = ['1', '.', '5'] then some (((6144 : ℕ) : ℚ) / 4096) else some (((8192 : ℕ) : ℚ) / 4096)) 44100 frames
        (some (secondsHeader ['1', '.', '5'] ['2']))).map (Option.map fun r => (r.status, r.body)) :=
  C324_exact _ 44100 (by norm_num) (by decide) frames _ _ ⟨by simp, by decide, by decide⟩ (by decide) 6144 8192 (by simp) (by simp) (by norm_num) (by norm_num)

example := C324_rest (α := ℕ) (fun s => if s = ['0', '.', '1'] then some (1 / 10) else none) 44100 (by norm_num) (by decide) [] ['0', '.', '1'] ['x'] ⟨by simp, by decide, by decide⟩ (by decide)
  (1 / 10) (by simp) (by simp) (by norm_num) (by norm_num)

end Zounds.FloatRange
