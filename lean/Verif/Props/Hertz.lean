import Verif.Model.Hertz
import Verif.Props.Frequency
import Verif.Props.Psychoacoustics
import Mathlib.Analysis.Convex.SpecificFunctions.Basic
import Mathlib.Analysis.Complex.ExponentialBounds
import Mathlib.Topology.Order.IntermediateValue
/-!
# Properties C328 (frequencies as numbers), C329 (Bark and Mel numbers), C330 (units survive addition only), C331 (bands and scales), C332 (the quality factor)
-/

namespace Zounds.Hertz
open Zounds Zounds.Freq Zounds.Psycho Zounds.Props.Psycho Zounds.Props.Frequency

/-! ## Specification -/

/-- What a program can write with `Hertz`, `+` and unary `-`. -/
inductive Expr where
  | num (r : Raw)
  | hertz (e : Expr)
  | neg (e : Expr)
  | add (a b : Expr)

/-- What it is worth. -/
noncomputable def Expr.meaning : Expr → ℝ
  | .num r => r.val
  | .hertz e => e.meaning
  | .neg e => -e.meaning
  | .add a b => a.meaning + b.meaning

/-- What Python makes of it. -/
noncomputable def Expr.eval : Expr → Except PyErr Num
  | .num r => .ok (.raw r)
  | .hertz e =>
    match e.eval with
    | .error x => .error x
    | .ok v =>
      match mkHertz v with
      | .error x => .error x
      | .ok h => .ok (.unit h)
  | .neg e =>
    match e.eval with
    | .error x => .error x
    | .ok v => minus v
  | .add a b =>
    match a.eval with
    | .error x => .error x
    | .ok v =>
      match b.eval with
      | .error x => .error x
      | .ok w => plus v w

/-- Is every number in the program a float? -/
def Expr.floats : Expr → Prop
  | .num r => ∃ x, r = .flt x
  | .hertz e => e.floats
  | .neg e => e.floats
  | .add a b => a.floats ∧ b.floats

/-- An instance of exactly the class `Hertz`. -/
def IsHertz (v : Num) : Prop := ∃ h, v = .unit h ∧ h.cls = .hertz

/-! ## Lemmas -/

theorem add_val (a b : Raw) : (a.add b).val = a.val + b.val := by
  cases a <;> cases b <;> simp [Raw.add, Raw.val]

theorem neg_val (a : Raw) : a.neg.val = -a.val := by
  cases a <;> simp [Raw.neg, Raw.val]

theorem mkHertz_raw (r : Raw) : mkHertz (.raw r) = .ok ⟨.hertz, r.val, r⟩ := rfl

theorem mkHertz_hz (v : Num) (h : Hz) (hm : mkHertz v = .ok h) : h.cls = .hertz ∧ h.fval = v.hz.val ∧ h.hz = v.hz := by
  cases v with
  | raw r => rw [mkHertz_raw] at hm; cases hm; exact ⟨rfl, rfl, rfl⟩
  | unit g =>
    obtain ⟨c, f, z⟩ := g
    cases z with
    | int i => exact nomatch hm
    | flt x => cases hm; exact ⟨rfl, rfl, rfl⟩

/-! ## C328 -/

/-- **C328** (arithmetic): what a program of `Hertz`, `+` and unary `-` computes is worth what it means, both as the float Python compares and computes with and as the attribute `hz`. -/
theorem C328_expression (e : Expr) (v : Num) (h : e.eval = .ok v) : v.fval = e.meaning ∧ v.hz.val = e.meaning := by
  induction e generalizing v with
  | num r => cases h; exact ⟨rfl, rfl⟩
  | hertz e ih =>
    unfold Expr.eval at h
    cases he : e.eval with
    | error x => rw [he] at h; exact nomatch h
    | ok w =>
      rw [he] at h
      obtain ⟨-, h2⟩ := ih w he
      simp only at h
      cases hm : mkHertz w with
      | error x => rw [hm] at h; exact nomatch h
      | ok g =>
        rw [hm] at h
        cases h
        obtain ⟨-, hf, hz⟩ := mkHertz_hz w g hm
        exact ⟨hf.trans h2, by rw [Num.hz, hz]; exact h2⟩
  | neg e ih =>
    unfold Expr.eval at h
    cases he : e.eval with
    | error x => rw [he] at h; exact nomatch h
    | ok w =>
      rw [he] at h
      obtain ⟨h1, h2⟩ := ih w he
      simp only at h
      cases w with
      | raw r => cases h; exact ⟨by simpa [Num.fval, neg_val, Expr.meaning] using h1, by simpa [Num.hz, neg_val, Expr.meaning] using h2⟩
      | unit g =>
        simp only [minus, mkHertz_raw] at h
        cases h
        have : g.hz.val = e.meaning := h2
        simp only [Num.fval, Num.hz, neg_val, Expr.meaning, this, and_self]
  | add a b iha ihb =>
    unfold Expr.eval at h
    cases ha : a.eval with
    | error x => rw [ha] at h; exact nomatch h
    | ok v1 =>
      rw [ha] at h
      simp only at h
      cases hb : b.eval with
      | error x => rw [hb] at h; exact nomatch h
      | ok w =>
        rw [hb] at h
        simp only at h
        obtain ⟨a1, a2⟩ := iha v1 ha
        obtain ⟨b1, b2⟩ := ihb w hb
        cases v1 with
        | raw r =>
          cases w with
          | raw s =>
            cases h
            have e1 : r.val = a.meaning := a1
            have e2 : s.val = b.meaning := b1
            simp only [Num.fval, Num.hz, add_val, Expr.meaning, e1, e2, and_self]
          | unit g =>
            cases h
            have e1 : r.val = a.meaning := a1
            have e2 : g.fval = b.meaning := b1
            have e3 : (Raw.flt (r.val + g.fval)).val = a.meaning + b.meaning := by rw [← e1, ← e2]; rfl
            exact ⟨e3, e3⟩
        | unit g =>
          simp only [plus, mkHertz_raw] at h
          cases h
          have e1 : g.hz.val = a.meaning := a2
          have e3 : (g.hz.add w.hz).val = a.meaning + b.meaning := by rw [add_val, e1, b2]
          exact ⟨e3, e3⟩

/-- **C328** (failures): such a program can only fail with TypeError, and not if its numbers are floats. -/
theorem C328_fails (e : Expr) : (∀ x, e.eval = .error x → x = .typeError) ∧
    (e.floats → ∃ v x, e.eval = .ok v ∧ v.hz = .flt x) := by
  induction e with
  | num r => exact ⟨fun x h => (nomatch h), fun ⟨x, hx⟩ => ⟨_, x, rfl, hx⟩⟩
  | hertz e ih =>
    obtain ⟨ih1, ih2⟩ := ih
    constructor
    · intro x h
      unfold Expr.eval at h
      cases he : e.eval with
      | error y => rw [he] at h; cases h; exact ih1 _ he
      | ok w =>
        rw [he] at h
        simp only at h
        cases w with
        | raw r => exact nomatch h
        | unit g =>
          obtain ⟨c, f, z⟩ := g
          cases z with
          | int i => cases h; rfl
          | flt y => exact nomatch h
    · intro hf
      obtain ⟨w, x, he, hx⟩ := ih2 hf
      unfold Expr.eval
      rw [he]
      cases w with
      | raw r => exact ⟨_, x, rfl, hx⟩
      | unit g =>
        obtain ⟨c, f, z⟩ := g
        simp only [Num.hz] at hx
        subst hx
        exact ⟨_, x, rfl, rfl⟩
  | neg e ih =>
    obtain ⟨ih1, ih2⟩ := ih
    constructor
    · intro x h
      unfold Expr.eval at h
      cases he : e.eval with
      | error y => rw [he] at h; cases h; exact ih1 _ he
      | ok w => rw [he] at h; cases w <;> exact nomatch h
    · intro hf
      obtain ⟨w, x, he, hx⟩ := ih2 hf
      unfold Expr.eval
      rw [he]
      cases w with
      | raw r => simp only [Num.hz] at hx; subst hx; exact ⟨_, -x, rfl, rfl⟩
      | unit g => obtain ⟨c, f, z⟩ := g; simp only [Num.hz] at hx; subst hx; exact ⟨_, -x, rfl, rfl⟩
  | add a b iha ihb =>
    obtain ⟨a1, a2⟩ := iha
    obtain ⟨b1, b2⟩ := ihb
    constructor
    · intro x h
      unfold Expr.eval at h
      cases ha : a.eval with
      | error y => rw [ha] at h; cases h; exact a1 _ ha
      | ok v =>
        rw [ha] at h
        simp only at h
        cases hb : b.eval with
        | error y => rw [hb] at h; cases h; exact b1 _ hb
        | ok w => rw [hb] at h; cases v <;> cases w <;> exact nomatch h
    · rintro ⟨ha, hb⟩
      obtain ⟨v, x, hv, hx⟩ := a2 ha
      obtain ⟨w, y, hw, hy⟩ := b2 hb
      unfold Expr.eval
      rw [hv, hw]
      cases v with
      | raw r =>
        simp only [Num.hz] at hx
        subst hx
        cases w with
        | raw s => simp only [Num.hz] at hy; subst hy; exact ⟨_, x + y, rfl, rfl⟩
        | unit g => exact ⟨_, x + g.fval, rfl, rfl⟩
      | unit g =>
        obtain ⟨c, f, z⟩ := g
        simp only [Num.hz] at hx
        subst hx
        refine ⟨_, x + y, rfl, ?_⟩
        simp only [Num.hz] at hy ⊢
        rw [hy]
        rfl

/-- **C328** (conversion): `float(Hertz(r))` and `Hertz(Hertz(r))` are TypeErrors exactly if `r` is an integer; otherwise they give back `r`. So both ends of the audible range cannot be converted; that exists
exactly for rates of 42 samples per second or more. -/
theorem C328_float (r : Raw) (sps : Int) :
    (∃ h, mkHertz (.raw r) = .ok h ∧
      (∀ i, r = .int i → toFloat (.unit h) = .error .typeError ∧ mkHertz (.unit h) = .error .typeError) ∧
      (∀ x, r = .flt x → toFloat (.unit h) = .ok x ∧ mkHertz (.unit h) = .ok h)) ∧
    (42 ≤ sps → ∃ a b, audibleRange sps = .ok (a, b) ∧ a.fval = 20 ∧ b.fval = (sps / 2 : Int) ∧
      toFloat (.unit a) = .error .typeError ∧ toFloat (.unit b) = .error .typeError) ∧
    (sps < 42 → audibleRange sps = .error .valueError) := by
  refine ⟨⟨_, rfl, ?_, ?_⟩, ?_, ?_⟩
  · rintro i rfl; exact ⟨rfl, rfl⟩
  · rintro x rfl; exact ⟨rfl, rfl⟩
  · intro h
    refine ⟨⟨.hertz, (20 : Int), .int 20⟩, ⟨.hertz, (sps / 2 : Int), .int (sps / 2)⟩, ?_, by norm_num, rfl, rfl, rfl⟩
    simp only [audibleRange, mkHertz_raw, Raw.val, Band.new]
    rw [if_neg]
    have : (20 : Int) < sps / 2 := by omega
    exact not_le.2 (by exact_mod_cast this)
  · intro h
    simp only [audibleRange, mkHertz_raw, Raw.val, Band.new]
    rw [if_pos]
    have : sps / 2 ≤ (20 : Int) := by omega
    exact_mod_cast this

/-- **C328**: `Hertz(Hertz(440))` is an error although `Hertz(Hertz(440.0))` is not. -/
theorem C328_twice_refuted : (Expr.hertz (.hertz (.num (.int 440)))).eval = .error .typeError ∧
    ∃ v, (Expr.hertz (.hertz (.num (.flt 440)))).eval = .ok v ∧ v.fval = 440 :=
  ⟨rfl, _, rfl, rfl⟩

example : ∃ v, (Expr.add (.hertz (.num (.int 100))) (.neg (.hertz (.num (.flt (1 / 2)))))).eval = .ok v ∧ v.fval = 100 + -(1 / 2) :=
  ⟨_, rfl, (C328_expression (.add (.hertz (.num (.int 100))) (.neg (.hertz (.num (.flt (1 / 2)))))) _ rfl).1.trans (by simp [Expr.meaning, Raw.val])⟩
example := (C328_fails (.add (.hertz (.num (.flt 100))) (.neg (.hertz (.num (.flt (1 / 2))))))).2 ⟨⟨_, rfl⟩, ⟨_, rfl⟩⟩
example := (C328_float (.int 440) 44100).2.1 (by norm_num)

/-! ## C329 -/

/-- The number of a Bark is its frequency only for zero. -/
theorem bark_self (b : ℝ) : barkToHz b = b ↔ b = 0 := by
  constructor
  · intro h
    rw [barkToHz_eq] at h
    rcases lt_trichotomy b 0 with hb | hb | hb
    · have : b / 6 < 0 := by linarith
      have h2 : Real.sinh (b / 6) < b / 6 := Real.sinh_lt_self_iff.2 this
      linarith
    · exact hb
    · have : 0 < b / 6 := by linarith
      have h2 : b / 6 < Real.sinh (b / 6) := Real.self_lt_sinh_iff.2 this
      linarith
  · rintro rfl; exact C48_zero.1

/-- Besides zero a single Mel number is its frequency. -/
theorem mel_self : ∃ m₀ : ℝ, 1127 / 2 < m₀ ∧ m₀ < 1127 ∧ ∀ m, melToHz m = m ↔ m = 0 ∨ m = m₀ := by
  have hcont : ContinuousOn (fun m : ℝ => melToHz m - m) (Set.Icc (1127 / 2) 1127) := by
    unfold melToHz
    fun_prop
  have he1 := Real.exp_one_gt_d9
  have he2 := Real.exp_one_lt_d9
  have hlo : melToHz (1127 / 2) - 1127 / 2 < 0 := by
    unfold melToHz
    have h1 : Real.exp (1127 / 2 / 1127) ^ 2 = Real.exp 1 := by
      rw [← Real.exp_nat_mul]; norm_num
    have h0 := Real.exp_pos (1127 / 2 / 1127)
    have : Real.exp (1127 / 2 / 1127) < 165 / 100 := by nlinarith
    linarith
  have hhi : 0 < melToHz 1127 - 1127 := by
    unfold melToHz
    rw [div_self (by norm_num)]
    linarith
  obtain ⟨m₀, ⟨h1, h2⟩, h3⟩ := intermediate_value_Ioo (by norm_num) hcont ⟨hlo, hhi⟩
  refine ⟨m₀, h1, h2, fun m => ⟨fun hm => ?_, ?_⟩⟩
  · by_contra hne
    push Not at hne
    have h3 : melToHz m₀ = m₀ := by simp only at h3; linarith
    have hp : ∀ x, melToHz x = x → Real.exp (x / 1127) = 1 + x / 700 := by
      intro x hx
      unfold melToHz at hx
      linarith
    have key : ∀ x y z : ℝ, x < y → y < z → melToHz x = x → melToHz y = y → melToHz z = z → False := by
      intro x y z hxy hyz hx hy hz
      have hc := strictConvexOn_exp.2 (Set.mem_univ (x / 1127)) (Set.mem_univ (z / 1127)) (by intro h; linarith)
        (show 0 < (z - y) / (z - x) from div_pos (by linarith) (by linarith)) (show 0 < (y - x) / (z - x) from div_pos (by linarith) (by linarith))
        (by rw [← add_div]; exact (div_eq_one_iff_eq (by linarith)).2 (by ring))
      have hzx : z - x ≠ 0 := by linarith
      have e1 : ((z - y) / (z - x)) • (x / 1127) + ((y - x) / (z - x)) • (z / 1127) = y / 1127 := by
        simp only [smul_eq_mul]
        field_simp
        ring
      have e2 : ((z - y) / (z - x)) • Real.exp (x / 1127) + ((y - x) / (z - x)) • Real.exp (z / 1127) = 1 + y / 700 := by
        rw [hp x hx, hp z hz]
        simp only [smul_eq_mul]
        field_simp
        ring
      rw [e1, e2, hp y hy] at hc
      exact lt_irrefl _ hc
    have h0 := C48_zero.2
    rcases lt_trichotomy m 0 with h | h | h
    · exact key m 0 m₀ h (by linarith) hm h0 h3
    · exact hne.1 h
    · rcases lt_trichotomy m m₀ with h' | h' | h'
      · exact key 0 m m₀ h h' h0 hm h3
      · exact hne.2 h'
      · exact key 0 m₀ m (by linarith) h' h0 h3 hm
  · rintro (rfl | rfl)
    · exact C48_zero.2
    · simp only at h3; linarith

/-- A `Bark` or `Mel` made from a number, and the frequency it stands for. -/
def Perceives (h : Hz) (number frequency : ℝ) : Prop :=
  ∃ r : Raw, number = r.val ∧ ((h = mkBark r ∧ frequency = barkToHz r.val) ∨ (h = mkMel r ∧ frequency = melToHz r.val))

/-- **C329** (what sees the frequency): `float(b)`, `Hertz(b)`, `-b`, `b + x` and `Hertz(..) + b` use the frequency a Bark or Mel stands for. -/
theorem C329_frequency (h : Hz) (number frequency : ℝ) (hh : Perceives h number frequency) (x : Num) (g : Hz) :
    toFloat (.unit h) = .ok frequency ∧
    (∃ r, mkHertz (.unit h) = .ok r ∧ r.cls = .hertz ∧ r.fval = frequency ∧ r.hz.val = frequency) ∧
    (∃ r, minus (.unit h) = .ok (.unit r) ∧ r.cls = .hertz ∧ r.fval = -frequency) ∧
    (∃ r, plus (.unit h) x = .ok (.unit r) ∧ r.cls = .hertz ∧ r.fval = frequency + x.hz.val) ∧
    (∃ r, plus (.unit g) (.unit h) = .ok (.unit r) ∧ r.cls = .hertz ∧ r.fval = g.hz.val + frequency) := by
  have hz : h.hz = .flt frequency := by
    obtain ⟨r, -, ⟨rfl, rfl⟩ | ⟨rfl, rfl⟩⟩ := hh <;> rfl
  obtain ⟨c, f, z⟩ := h
  subst hz
  refine ⟨rfl, ⟨_, rfl, rfl, rfl, rfl⟩, ⟨_, rfl, rfl, rfl⟩, ⟨_, rfl, rfl, ?_⟩, ⟨_, rfl, rfl, ?_⟩⟩
  · exact add_val (.flt frequency) _
  · exact add_val _ (.flt frequency)

/-- **C329** (what does not): comparing, subtracting, multiplying and adding on the right of a plain number use the Bark or Mel number itself. So comparisons with frequencies come out as for the frequency it stands for
exactly if that is the number: for Bark only at zero, for Mel at zero and one other number (between 563 and 1127). -/
theorem C329_number (h : Hz) (number frequency : ℝ) (hh : Perceives h number frequency) (r : Raw) (y : Num) :
    (less (.unit h) y ↔ number < y.fval) ∧ subtract (.unit h) y = .raw (.flt (number - y.fval)) ∧
    multiply (.unit h) y = .raw (.flt (number * y.fval)) ∧ plus (.raw r) (.unit h) = .ok (.raw (.flt (r.val + number))) ∧
    ((∀ x : ℝ, less (.unit h) (.raw (.flt x)) ↔ frequency < x) ↔ number = frequency) := by
  have hf : h.fval = number := by
    obtain ⟨r, rfl, ⟨rfl, rfl⟩ | ⟨rfl, rfl⟩⟩ := hh <;> rfl
  subst hf
  refine ⟨Iff.rfl, rfl, rfl, rfl, ?_⟩
  constructor
  · intro hall
    have hall' : ∀ x : ℝ, h.fval < x ↔ frequency < x := hall
    rcases lt_trichotomy h.fval frequency with hlt | heq | hlt
    · exact absurd ((hall' frequency).1 hlt) (lt_irrefl _)
    · exact heq
    · exact absurd ((hall' h.fval).2 hlt) (lt_irrefl _)
  · intro he x
    show h.fval < x ↔ _
    rw [he]

/-- **C329** (where number and frequency agree). -/
theorem C329_agree : (∀ b, barkToHz b = b ↔ b = 0) ∧
    ∃ m₀ : ℝ, 1127 / 2 < m₀ ∧ m₀ < 1127 ∧ ∀ m, melToHz m = m ↔ m = 0 ∨ m = m₀ :=
  ⟨bark_self, mel_self⟩

/-- **C329**: ten Bark, which is more than 1500 Hertz, compares as less than 11 Hertz. -/
theorem C329_compare_refuted : less (.unit (mkBark (.int 10))) (.raw (.int 11)) ∧ 1500 < barkToHz 10 := by
  constructor
  · show ((10 : Int) : ℝ) < ((11 : Int) : ℝ)
    norm_num
  · unfold barkToHz
    have h1 : (529 / 100 : ℝ) < Real.exp (10 / 6) := by
      have he := Real.exp_one_gt_d9
      have h3 : Real.exp (10 / 6) ^ 3 = Real.exp 1 ^ 5 := by
        rw [← Real.exp_nat_mul, ← Real.exp_nat_mul]; norm_num
      by_contra hle
      push Not at hle
      have h4 : Real.exp (10 / 6) ^ 3 ≤ (529 / 100) ^ 3 := pow_le_pow_left₀ (Real.exp_pos _).le hle 3
      have h5 : (27182 / 10000 : ℝ) ^ 5 ≤ Real.exp 1 ^ 5 := pow_le_pow_left₀ (by norm_num) (by linarith) 5
      rw [h3] at h4
      have : (27182 / 10000 : ℝ) ^ 5 ≤ (529 / 100) ^ 3 := h5.trans h4
      norm_num at this
    have h2 : Real.exp (-10 / 6) < 1 / 5 := by
      have hm : Real.exp (-10 / 6) * Real.exp (10 / 6) = 1 := by
        rw [← Real.exp_add]; norm_num
      have hp := Real.exp_pos (-10 / 6)
      nlinarith
    linarith

example := C329_frequency (mkBark (.int 10)) _ _ ⟨.int 10, rfl, Or.inl ⟨rfl, rfl⟩⟩ (.raw (.int 5)) (mkMel (.int 100))
example := C329_number (mkMel (.flt 10)) _ _ ⟨.flt 10, rfl, Or.inr ⟨rfl, rfl⟩⟩ (.int 5) (.raw (.int 100))

/-! ## C330 -/

/-- **C330** (what keeps the unit): a sum whose left side has a unit, and a negated frequency, are Hertz; a sum with a plain number on the left, a difference and a product are plain numbers, and floats if any operand had a unit. -/
theorem C330_units (h : Hz) (x y : Num) (r : Raw) :
    (∃ v, plus (.unit h) x = .ok v ∧ IsHertz v) ∧ (∃ v, minus (.unit h) = .ok v ∧ IsHertz v) ∧
    (∃ z, plus (.raw r) (.unit h) = .ok (.raw (.flt z))) ∧ (∃ z, subtract (.unit h) y = .raw (.flt z)) ∧
    (∃ z, subtract y (.unit h) = .raw (.flt z)) ∧ (∃ z, multiply (.unit h) y = .raw (.flt z)) ∧ (∃ z, multiply y (.unit h) = .raw (.flt z)) := by
  refine ⟨⟨_, rfl, _, rfl, rfl⟩, ⟨_, rfl, _, rfl, rfl⟩, ⟨_, rfl⟩, ⟨_, rfl⟩, ?_, ⟨_, rfl⟩, ?_⟩
  · cases y <;> exact ⟨_, rfl⟩
  · cases y <;> exact ⟨_, rfl⟩

/-- **C330** (what differences and products are worth): the difference and the product of the numbers Python computes with; of two integers an integer. -/
theorem C330_values (x y : Num) : (subtract x y).fval = x.fval - y.fval ∧ (multiply x y).fval = x.fval * y.fval ∧
    (∀ i j : Int, x = .raw (.int i) → y = .raw (.int j) → subtract x y = .raw (.int (i - j)) ∧ multiply x y = .raw (.int (i * j))) := by
  refine ⟨?_, ?_, ?_⟩
  · rcases x with (i | x) | h <;> rcases y with (j | y) | g <;> simp [subtract, Num.fval, Raw.sub, Raw.val]
  · rcases x with (i | x) | h <;> rcases y with (j | y) | g <;> simp [multiply, Num.fval, Raw.mul, Raw.val]
  · rintro i j rfl rfl
    exact ⟨rfl, rfl⟩

theorem bound_hertz (v : Num) (h : IsHertz v) : bound v = .hz v.fval := by
  obtain ⟨h, rfl, hc⟩ := h
  simp only [bound, hc, Num.fval]

theorem bound_not (v : Num) (h : ¬ IsHertz v) : (bound v).isHertz = false := by
  cases v with
  | raw r => cases r <;> rfl
  | unit g =>
    obtain ⟨c, f, z⟩ := g
    cases c with
    | hertz => exact absurd ⟨_, rfl, rfl⟩ h
    | bark => rfl
    | mel => rfl

theorem asInt_error (v : Num) (h : ∀ i, v ≠ .raw (.int i)) : (bound v).asInt = .error .typeError := by
  cases v with
  | raw r =>
    cases r with
    | int i => exact absurd rfl (h i)
    | flt x => rfl
  | unit g => obtain ⟨c, f, z⟩ := g; cases c <;> rfl

/-- **C330** (what slicing makes of it): `scale[a:b]` for frequencies 0 <= a < b of class Hertz is the scale cut to the band between them; if neither bound is a Hertz and they are not both integers it is a TypeError. So
`scale[x - y : z - w]` is a TypeError for frequencies x and z. -/
theorem C330_slices (X : NumExt ℝ) (s : Scale ℝ) (bs : List (Band ℝ)) (sb : Band ℝ) (hb : s.bands X = .ok bs) (hsb : s.band X = .ok sb) (a b : Num) :
    (IsHertz a → IsHertz b → 0 ≤ a.fval → a.fval < b.fval →
      s.getScale X (.slice (bound a) (bound b)) = s.getScale X (.band ⟨a.fval, b.fval⟩)) ∧
    (¬ IsHertz a → ¬ IsHertz b → ¬ ((∃ i, a = .raw (.int i)) ∧ ∃ i, b = .raw (.int i)) →
      s.getScale X (.slice (bound a) (bound b)) = .error .typeError) ∧
    (∀ x z : Hz, ∀ y w : Num, s.getScale X (.slice (bound (subtract (.unit x) y)) (bound (subtract (.unit z) w))) = .error .typeError) := by
  have hch : ∀ c, s ≠ .chroma c := by
    rintro c rfl
    exact nomatch hb
  have second : ∀ a b : Num, ¬ IsHertz a → ¬ IsHertz b → ¬ ((∃ i, a = .raw (.int i)) ∧ ∃ i, b = .raw (.int i)) →
      s.getScale X (.slice (bound a) (bound b)) = .error .typeError := by
    intro a b ha hb' hi
    have hsl : ∀ l : List (Band ℝ), sliceList l (bound a) (bound b) = .error .typeError := by
      intro l
      unfold sliceList
      by_cases h1 : ∃ i, a = .raw (.int i)
      · have h2 : ∀ i, b ≠ .raw (.int i) := fun i hi' => hi ⟨h1, i, hi'⟩
        rw [asInt_error b h2]
        obtain ⟨i, rfl⟩ := h1
        rfl
      · rw [asInt_error a (fun i hi' => h1 ⟨i, hi'⟩)]
    have hget : s.getSlice X (.slice (bound a) (bound b)) = .ok (.same (bound a) (bound b)) := by
      cases s with
      | chroma c => exact absurd rfl (hch c)
      | _ => simp [Scale.getSlice, bound_not a ha, bound_not b hb']
    unfold Scale.getScale
    rw [hb]
    simp only [hsl, hget, SliceOut.select]
  refine ⟨?_, second a b, ?_⟩
  · intro ha hb' h0 hlt
    have hget : s.getSlice X (.slice (bound a) (bound b)) = s.getSlice X (.band ⟨a.fval, b.fval⟩) := by
      have hband : hertzSliceBand sb.stop (bound a) (bound b) = .ok ⟨a.fval, b.fval⟩ := by
        rw [bound_hertz a ha, bound_hertz b hb']
        have e1 : ¬ a.fval < 0 := not_lt.2 h0
        have e2 : ¬ b.fval < 0 := not_lt.2 (h0.trans hlt.le)
        have e3 : ¬ b.fval ≤ a.fval := not_le.2 hlt
        simp only [hertzSliceBand, Bnd.value, Option.getD_some, Band.new, e1, e2, e3, if_false]
      rw [bound_hertz a ha, bound_hertz b hb'] at hband ⊢
      cases s with
      | chroma c => exact absurd rfl (hch c)
      | _ => simp only [Scale.getSlice, Bnd.isHertz, hsb, hband]; rfl
    have hdirect : sliceList bs (bound a) (bound b) = .error .typeError := by
      rw [bound_hertz a ha, bound_hertz b hb']
      rfl
    unfold Scale.getScale
    rw [hb]
    simp only [hdirect, hget]
  · intro x z y w
    refine second _ _ ?_ ?_ ?_
    · rintro ⟨h, hh, -⟩; exact nomatch hh
    · rintro ⟨h, hh, -⟩; exact nomatch hh
    · rintro ⟨⟨i, hi⟩, -⟩; exact nomatch hi

example := C330_units ⟨.hertz, 5, .int 5⟩ (.raw (.int 3)) (.raw (.int 3)) (.int 3)
example := (C330_slices realExt (.explicit [⟨0, 10⟩, ⟨10, 20⟩]) [⟨0, 10⟩, ⟨10, 20⟩] ⟨0, 20⟩ rfl (by simp [Scale.band, spanOf, Band.new])
  (.unit ⟨.hertz, 5, .flt 5⟩) (.unit ⟨.hertz, 15, .flt 15⟩)).1 ⟨_, rfl, rfl⟩ ⟨_, rfl, rfl⟩ (by norm_num [Num.fval]) (by norm_num [Num.fval])

/-! ## C331 -/

variable {α : Type} [Field α] [LinearOrder α]

theorem eq_iff (a b : Band α) : a.eq b = true ↔ a = b := by
  obtain ⟨a1, a2⟩ := a
  obtain ⟨b1, b2⟩ := b
  simp [Band.eq]

/-- **C331**: a band equals another exactly if start and stop are the same, and then the two have the same hash; it also equals every scale that spans it, although no scale equals a band (an explicit scale
cannot even be compared with one). -/
theorem C331_band_equality (X : NumExt α) (b c : Band α) (s : Scale α) (sb : Band α) (hs : s.band X = .ok sb) :
    (bandEq X b (.band c) = .ok true ↔ b.start = c.start ∧ b.stop = c.stop) ∧
    (bandEq X b (.band c) = .ok true ↔ hashKey b = hashKey c) ∧ bandEq X b .other = .ok false ∧
    (bandEq X b (.scale s) = .ok true ↔ sb.start = b.start ∧ sb.stop = b.stop) ∧
    (scaleEqBand s b = .ok false ∨ (∃ l, s = .explicit l) ∧ scaleEqBand s b = .error .typeError) := by
  obtain ⟨b1, b2⟩ := b
  obtain ⟨c1, c2⟩ := c
  obtain ⟨d1, d2⟩ := sb
  refine ⟨?_, ?_, rfl, ?_, ?_⟩
  · simp [bandEq, eq_iff]
  · simp [bandEq, eq_iff, hashKey]
  · simp only [bandEq, hs, Except.ok.injEq, eq_iff, Band.mk.injEq]
    constructor <;> rintro ⟨rfl, rfl⟩ <;> exact ⟨rfl, rfl⟩
  · cases s with
    | explicit l => exact Or.inr ⟨⟨l, rfl⟩, rfl⟩
    | _ => exact Or.inl rfl

/-- **C331**: equality of a band and a scale depends on which is on the left. -/
theorem C331_symmetry_refuted : bandEq noExt (⟨0, 100⟩ : Band ℚ) (.scale (.linear ⟨0, 100⟩ 10 false)) = .ok true ∧
    scaleEqBand (.linear (⟨0, 100⟩ : Band ℚ) 10 false) ⟨0, 100⟩ = .ok false ∧
    bandEq noExt (⟨0, 100⟩ : Band ℚ) (.scale (.explicit [⟨0, 50⟩, ⟨50, 100⟩])) = .ok true ∧
    scaleEqBand (.explicit [(⟨0, 50⟩ : Band ℚ), ⟨50, 100⟩]) ⟨0, 100⟩ = .error .typeError := by
  refine ⟨by decide +kernel, rfl, by decide +kernel, rfl⟩

example := C331_band_equality noExt (⟨0, 100⟩ : Band ℚ) ⟨0, 50⟩ (.linear ⟨0, 100⟩ 10 false) ⟨0, 100⟩ rfl

/-! ## C332 -/

variable [IsStrictOrderedRing α]

theorem quality_get (X : NumExt α) (s : Scale α) (bs : List (Band α)) (hb : s.bands X = .ok bs) :
    quality X s = .ok (bs.map fun c => c.center / c.bandwidth) := by
  unfold quality
  rw [hb]
  simp only [Except.ok.injEq]
  rw [List.zipWith_map, List.zipWith_self]

/-- **C332** (every scale): Q lists for each band the centre over the bandwidth: at least one half exactly if the band does not reach below zero. -/
theorem C332_every (X : NumExt α) (s : Scale α) (bs : List (Band α)) (hb : s.bands X = .ok bs) (hwf : ∀ c ∈ bs, c.start < c.stop) :
    ∃ qs, quality X s = .ok qs ∧ qs.length = bs.length ∧ ∀ i (h : i < bs.length) (h' : i < qs.length),
      qs[i] * (bs[i].stop - bs[i].start) = (bs[i].start + bs[i].stop) / 2 ∧ (1 / 2 ≤ qs[i] ↔ 0 ≤ bs[i].start) := by
  refine ⟨_, quality_get X s bs hb, by simp, ?_⟩
  intro i h h'
  have hw := hwf bs[i] (List.getElem_mem h)
  have hp : 0 < bs[i].stop - bs[i].start := by linarith
  rw [List.getElem_map]
  simp only [Band.center, Band.bandwidth]
  constructor
  · field_simp
    ring
  · rw [div_le_div_iff₀ (by norm_num) hp]
    constructor <;> intro h1 <;> linarith

/-- **C332** (linear scales): Q grows by exactly one from band to band, from one half plus the start in bandwidths. -/
theorem C332_linear (X : NumExt α) (b : Band α) (n : Nat) (ev : Bool) (hb : b.start < b.stop) (hn : 2 ≤ n) :
    ∃ qs, quality X (.linear b n ev) = .ok qs ∧ qs.length = n ∧
      ∀ i (h : i < qs.length), qs[i] = b.start / ((b.stop - b.start) / n) + 1 / 2 + i := by
  refine ⟨_, quality_get X _ _ (linearBands_eq b n hb hn), by simp, ?_⟩
  intro i h
  have hn0 : (n : α) ≠ 0 := by
    have : 0 < n := by omega
    exact_mod_cast (Nat.cast_pos (α := α).2 this).ne'
  have hp : b.stop - b.start ≠ 0 := (sub_pos.2 hb).ne'
  simp only [List.getElem_map, List.getElem_range, Band.center, Band.bandwidth, part]
  obtain ⟨w, hw⟩ : ∃ w, w = (b.stop - b.start) / (n : α) := ⟨_, rfl⟩
  have hw0 : w ≠ 0 := by rw [hw]; exact div_ne_zero hp hn0
  rw [← hw]
  have e1 : b.start + ((i : α) + 1) * w - (b.start + (i : α) * w) = w := by ring
  rw [e1]
  field_simp
  ring

/-- **C332** (geometric scales): Q is one over the bandwidth ratio in every band. -/
theorem C332_geometric (s e r : ℝ) (n : Nat) (ev : Bool) (hs : 0 < s) (he : 0 < e) (hr : 0 < r) :
    quality realExt (.geometric s e r n ev) = .ok (List.replicate n (1 / r)) := by
  obtain ⟨bs, hb, hl, hq, -⟩ := C48_geometric_scale s e r n ev hs he hr
  rw [quality_get realExt _ bs hb, Except.ok.injEq, ← hl, List.eq_replicate_iff]
  refine ⟨by simp, ?_⟩
  intro q hq'
  obtain ⟨c, hc, rfl⟩ := List.mem_map.1 hq'
  exact (hq c hc).2

/-- **C332** (Bark and Mel scales): Q grows from band to band and stays below 250/27. -/
theorem C332_perceptual (b : Band ℝ) (n : Nat) (hb : b.start < b.stop) (h0 : 0 ≤ b.start) (s : Scale ℝ) (hs : s = .bark b n ∨ s = .mel b n) :
    ∃ qs, quality realExt s = .ok qs ∧ qs.length = n ∧ qs.Pairwise (· < ·) ∧ ∀ q ∈ qs, q < 250 / 27 := by
  obtain ⟨bs, h1, hp⟩ : ∃ bs, s.bands realExt = .ok bs ∧ Perceptual b n bs := by
    rcases hs with rfl | rfl
    · exact C48_bark_scale b n hb (by linarith)
    · exact C48_mel_scale b n hb (by linarith)
  have hpos : ∀ x ∈ bs, 0 ≤ x.center := by
    intro x hx
    obtain ⟨i, hi, rfl⟩ := List.getElem_of_mem hx
    have hfirst := hp.first (by omega)
    have hinc := List.pairwise_iff_getElem.1 hp.increasing
    rcases Nat.eq_zero_or_pos i with rfl | hi0
    · rw [hfirst]; exact h0
    · have := hinc 0 i (by simp; omega) (by simpa using hi) hi0
      simp only [List.getElem_map] at this
      rw [hfirst] at this
      linarith
  have hq : ∀ x ∈ bs, x.center / x.bandwidth = x.center / (108 / 1000 * x.center + 247 / 10) := fun x hx => by rw [hp.width x hx]
  refine ⟨_, quality_get realExt _ bs h1, by simp [hp.count], ?_, ?_⟩
  · rw [List.pairwise_map]
    have hinc := hp.increasing
    rw [List.pairwise_map] at hinc
    refine List.Pairwise.imp_of_mem ?_ hinc
    intro x y hx hy hxy
    rw [hq x hx, hq y hy]
    have := hpos x hx
    have := hpos y hy
    rw [div_lt_div_iff₀ (by linarith) (by linarith)]
    nlinarith
  · intro q hq'
    obtain ⟨x, hx, rfl⟩ := List.mem_map.1 hq'
    rw [hq x hx]
    have := hpos x hx
    rw [div_lt_div_iff₀ (by linarith) (by norm_num)]
    linarith

example := C332_every noExt (.explicit [(⟨-5, 10⟩ : Band ℚ), ⟨10, 20⟩]) _ rfl (by intro c hc; simp only [List.mem_cons, List.not_mem_nil, or_false] at hc; rcases hc with rfl | rfl <;> norm_num)
example := C332_linear noExt (⟨20, 20000⟩ : Band ℚ) 10 false (by norm_num) (by norm_num)
example := C332_geometric 20 20000 (1 / 20) 10 false (by norm_num) (by norm_num) (by norm_num)
example := C332_perceptual ⟨20, 20000⟩ 64 (by norm_num) (by norm_num) _ (Or.inl rfl)

end Zounds.Hertz
