import Verif.Model.Blocks
import Verif.Props.Loss

/-!
# Layers of networks (C266 - C273)
-/

namespace Zounds.Blocks

/-- A tensor of one example: `ch` channels of `n` samples. -/
def Shaped (ch n : Nat) (x : List (List ℝ)) : Prop := x.length = ch ∧ ∀ r ∈ x, r.length = n

theorem at2_range (a b : Nat) (f : Nat → Nat → ℝ) (c i : Nat) (hc : c < a) (hi : i < b) :
    at2 ((List.range a).map fun (c : Nat) => (List.range b).map fun (i : Nat) => f c i) c i = f c i := by
  simp [at2, hc, hi]

theorem shaped_range (a b : Nat) (f : Nat → Nat → ℝ) :
    Shaped a b ((List.range a).map fun (c : Nat) => (List.range b).map fun (i : Nat) => f c i) := by
  constructor
  · simp
  · intro r hr
    simp only [List.mem_map] at hr
    obtain ⟨c, _, rfl⟩ := hr
    simp

theorem at2_big {ch n : Nat} {x : List (List ℝ)} (h : Shaped ch n x) (c i : Nat) (hi : n ≤ i) : at2 x c i = 0 := by
  unfold at2
  by_cases hc : c < x.length
  · have : (x.getD c []).length = n := by
      rw [List.getD_eq_getElem _ _ hc]
      exact h.2 _ (List.getElem_mem hc)
    exact List.getD_eq_default _ _ (by omega)
  · rw [List.getD_eq_default x _ (by omega)]; simp

theorem at2_none (x : List (List ℝ)) (c i : Nat) (hc : x.length ≤ c) : at2 x c i = 0 := by
  unfold at2
  rw [List.getD_eq_default x _ hc]; simp

theorem convLen_iff (s : Spec) (n m : Nat) : convLen s n = .ok m ↔
    s.Legal ∧ 0 < n ∧ s.extent ≤ n + 2 * s.padding ∧ m = (n + 2 * s.padding - s.extent) / s.stride + 1 := by
  unfold convLen
  split
  · rename_i h
    simp only [Except.ok.injEq]
    constructor
    · rintro rfl; exact ⟨h.1, h.2.1, h.2.2, rfl⟩
    · rintro ⟨_, _, _, rfl⟩; rfl
  · rename_i h
    constructor
    · intro h; exact nomatch h
    · rintro ⟨a, b, c, _⟩; exact absurd ⟨a, b, c⟩ h

theorem convTLen_iff (s : Spec) (m n : Nat) : convTLen s m = .ok n ↔
    s.Legal ∧ 0 < m ∧ 2 * s.padding < (m - 1) * s.stride + s.extent ∧ n = (m - 1) * s.stride + s.extent - 2 * s.padding := by
  unfold convTLen
  split
  · rename_i h
    simp only [Except.ok.injEq]
    constructor
    · rintro rfl; exact ⟨h.1, h.2.1, h.2.2, rfl⟩
    · rintro ⟨_, _, _, rfl⟩; rfl
  · rename_i h
    constructor
    · intro h; exact nomatch h
    · rintro ⟨a, b, c, _⟩; exact absurd ⟨a, b, c⟩ h

theorem conv_ok (s : Spec) (inC outC : Nat) (w : Nat → Nat → Nat → ℝ) (n m : Nat) (x : List (List ℝ)) (hx : x.length = inC)
    (hm : convLen s n = .ok m) :
    conv s inC outC w n x = .ok ((List.range outC).map fun o => (List.range m).map fun t =>
      ∑ c ∈ Finset.range inC, ∑ j ∈ Finset.range s.kernel, w o c j * atPad s.padding x c (t * s.stride + j * s.dilation)) := by
  unfold conv
  rw [if_pos hx, hm]
  rfl

theorem convT_ok (s : Spec) (inC outC : Nat) (w : Nat → Nat → Nat → ℝ) (m n : Nat) (y : List (List ℝ)) (hy : y.length = inC)
    (hn : convTLen s m = .ok n) :
    convT s inC outC w m y = .ok ((List.range outC).map fun c => (List.range n).map fun i =>
      ∑ o ∈ Finset.range inC, ∑ t ∈ Finset.range m, ∑ j ∈ Finset.range s.kernel,
        if t * s.stride + j * s.dilation = i + s.padding then at2 y o t * w o c j else 0) := by
  unfold convT
  rw [if_pos hy, hn]
  rfl

/-! ## C266: what a convolution computes -/

/-- **C266, size**: a convolution with positive kernel, stride and dilation of a signal that, padded on both sides, is at least as long as the dilated kernel
gives `outC` channels of `(n + 2p - d(k-1) - 1) / s + 1` samples; everything else is refused with RuntimeError. -/
theorem C266_size (s : Spec) (inC outC : Nat) (w : Nat → Nat → Nat → ℝ) (n : Nat) (x : List (List ℝ)) :
    (0 < s.kernel → 0 < s.stride → 0 < s.dilation → 0 < n → x.length = inC →
      s.dilation * (s.kernel - 1) + 1 ≤ n + 2 * s.padding →
      ∃ z, conv s inC outC w n x = .ok z ∧
        Shaped outC ((n + 2 * s.padding - s.dilation * (s.kernel - 1) - 1) / s.stride + 1) z) ∧
    (s.kernel = 0 ∨ s.stride = 0 ∨ s.dilation = 0 ∨ n = 0 ∨ x.length ≠ inC ∨ n + 2 * s.padding < s.dilation * (s.kernel - 1) + 1 →
      conv s inC outC w n x = .error .runtimeError) := by
  constructor
  · intro hk hs hd hn hx hl
    have : convLen s n = .ok ((n + 2 * s.padding - s.dilation * (s.kernel - 1) - 1) / s.stride + 1) := by
      rw [convLen_iff]
      refine ⟨⟨hk, hs, hd⟩, hn, hl, ?_⟩
      unfold Spec.extent
      rw [Nat.sub_sub]
    exact ⟨_, conv_ok s inC outC w n _ x hx this, shaped_range _ _ _⟩
  · intro h
    unfold conv
    split
    · rename_i hx
      have : convLen s n = .error .runtimeError := by
        unfold convLen
        refine if_neg ?_
        rintro ⟨⟨a, b, c⟩, d, e⟩
        unfold Spec.extent at e
        rcases h with h | h | h | h | h | h
        · omega
        · omega
        · omega
        · omega
        · exact h hx
        · omega
      rw [this]
      rfl
    · rfl

example (w : Nat → Nat → Nat → ℝ) := (C266_size ⟨4, 2, 1, 1⟩ 1 2 w 8 [[1, 2, 3, 4, 5, 6, 7, 8]]).1 (by decide) (by decide) (by decide) (by decide) rfl (by decide)

/-- **C266, receptive field**: sample `t` of the result depends on the samples from `t s - p` to `t s - p + d (k-1)` of the input only. -/
theorem C266_local (s : Spec) (inC outC : Nat) (w : Nat → Nat → Nat → ℝ) (n : Nat) (x x' z z' : List (List ℝ))
    (hz : conv s inC outC w n x = .ok z) (hz' : conv s inC outC w n x' = .ok z') (t : Nat)
    (same : ∀ c < inC, ∀ i, t * s.stride ≤ i + s.padding → i + s.padding ≤ t * s.stride + s.dilation * (s.kernel - 1) →
      at2 x c i = at2 x' c i) (o : Nat) :
    at2 z o t = at2 z' o t := by
  have hx : x.length = inC := by
    unfold conv at hz; split at hz
    · assumption
    · exact nomatch hz
  have hx' : x'.length = inC := by
    unfold conv at hz'; split at hz'
    · assumption
    · exact nomatch hz'
  cases hm : convLen s n with
  | error e => unfold conv at hz; rw [if_pos hx, hm] at hz; exact nomatch hz
  | ok m =>
    rw [conv_ok s inC outC w n m x hx hm] at hz
    rw [conv_ok s inC outC w n m x' hx' hm] at hz'
    cases hz; cases hz'
    by_cases ho : o < outC
    · by_cases ht : t < m
      · rw [at2_range _ _ _ _ _ ho ht, at2_range _ _ _ _ _ ho ht]
        refine Finset.sum_congr rfl fun c hc => Finset.sum_congr rfl fun j hj => ?_
        congr 1
        unfold atPad
        split
        · rfl
        · rename_i hp
          simp only [Finset.mem_range] at hc hj
          have : j * s.dilation ≤ s.dilation * (s.kernel - 1) := by
            rw [Nat.mul_comm]; exact Nat.mul_le_mul_left _ (by omega)
          exact same c hc _ (by omega) (by omega)
      · rw [at2_big (shaped_range _ _ _) _ _ (by omega), at2_big (shaped_range _ _ _) _ _ (by omega)]
    · rw [at2_none _ _ _ (by simp; omega), at2_none _ _ _ (by simp; omega)]

/-- **C266, linear**: the convolution of a combination of two signals is the combination of their convolutions. -/
theorem C266_linear (s : Spec) (inC outC : Nat) (w : Nat → Nat → Nat → ℝ) (n : Nat) (a b : ℝ) (x x' x'' z z' z'' : List (List ℝ))
    (hz : conv s inC outC w n x = .ok z) (hz' : conv s inC outC w n x' = .ok z') (hz'' : conv s inC outC w n x'' = .ok z'')
    (sum : ∀ c i, at2 x'' c i = a * at2 x c i + b * at2 x' c i) (o t : Nat) :
    at2 z'' o t = a * at2 z o t + b * at2 z' o t := by
  have get : ∀ {x z : List (List ℝ)}, conv s inC outC w n x = .ok z → x.length = inC := by
    intro x z hz
    unfold conv at hz; split at hz
    · assumption
    · exact nomatch hz
  have hx := get hz
  have hx' := get hz'
  have hx'' := get hz''
  cases hm : convLen s n with
  | error e => unfold conv at hz; rw [if_pos hx, hm] at hz; exact nomatch hz
  | ok m =>
    rw [conv_ok s inC outC w n m x hx hm] at hz
    rw [conv_ok s inC outC w n m x' hx' hm] at hz'
    rw [conv_ok s inC outC w n m x'' hx'' hm] at hz''
    cases hz; cases hz'; cases hz''
    by_cases ho : o < outC
    · by_cases ht : t < m
      · rw [at2_range _ _ _ _ _ ho ht, at2_range _ _ _ _ _ ho ht, at2_range _ _ _ _ _ ho ht]
        simp only [Finset.mul_sum]
        rw [← Finset.sum_add_distrib]
        refine Finset.sum_congr rfl fun c _ => ?_
        rw [← Finset.sum_add_distrib]
        refine Finset.sum_congr rfl fun j _ => ?_
        unfold atPad
        split
        · ring
        · rw [sum]; ring
      · rw [at2_big (shaped_range _ _ _) _ _ (by omega), at2_big (shaped_range _ _ _) _ _ (by omega),
          at2_big (shaped_range _ _ _) _ _ (by omega)]
        ring
    · rw [at2_none _ _ _ (by simp; omega), at2_none _ _ _ (by simp; omega), at2_none _ _ _ (by simp; omega)]
      ring

/-- **C266, time**: with `s` samples of silence before the signal the result is one sample later. -/
theorem C266_delay (s : Spec) (inC outC : Nat) (w : Nat → Nat → Nat → ℝ) (n : Nat) (x z : List (List ℝ))
    (hz : conv s inC outC w n x = .ok z) :
    ∃ m z', conv s inC outC w (n + s.stride) (x.map fun r => List.replicate s.stride 0 ++ r) = .ok z' ∧
      Shaped outC m z ∧ Shaped outC (m + 1) z' ∧ ∀ o < outC, ∀ t < m, at2 z' o (t + 1) = at2 z o t := by
  have hx : x.length = inC := by
    unfold conv at hz; split at hz
    · assumption
    · exact nomatch hz
  cases hm : convLen s n with
  | error e => unfold conv at hz; rw [if_pos hx, hm] at hz; exact nomatch hz
  | ok m =>
    have hm' : convLen s (n + s.stride) = .ok (m + 1) := by
      rw [convLen_iff] at hm ⊢
      obtain ⟨hl, hn, he, rfl⟩ := hm
      refine ⟨hl, by omega, by omega, ?_⟩
      rw [show n + s.stride + 2 * s.padding - s.extent = (n + 2 * s.padding - s.extent) + s.stride by omega,
        Nat.add_div_right _ hl.2.1]
    rw [conv_ok s inC outC w n m x hx hm] at hz
    cases hz
    refine ⟨m, _, conv_ok s inC outC w _ _ _ (by simpa using hx) hm', shaped_range _ _ _, shaped_range _ _ _, ?_⟩
    · intro o ho t ht
      rw [at2_range _ _ _ _ _ ho (by omega), at2_range _ _ _ _ _ ho ht]
      refine Finset.sum_congr rfl fun c hc => Finset.sum_congr rfl fun j hj => ?_
      congr 1
      have e : (t + 1) * s.stride + j * s.dilation = t * s.stride + j * s.dilation + s.stride := by ring
      rw [e]
      generalize t * s.stride + j * s.dilation = q
      have key : ∀ i, at2 (x.map fun r => List.replicate s.stride 0 ++ r) c i = if i < s.stride then 0 else at2 x c (i - s.stride) := by
        intro i
        unfold at2
        simp only [Finset.mem_range] at hc
        have hc' : c < x.length := by omega
        simp only [List.getD_eq_getElem?_getD, List.getElem?_map, List.getElem?_eq_getElem hc', Option.map_some, Option.getD_some]
        split
        · rename_i h
          rw [List.getElem?_append_left (by simpa using h)]
          simp [h]
        · rename_i h
          rw [List.getElem?_append_right (by simp; omega)]
          simp
      unfold atPad
      by_cases h1 : q + s.stride < s.padding
      · rw [if_pos h1, if_pos (by omega)]
      · rw [if_neg h1, key]
        by_cases h2 : q < s.padding
        · rw [if_pos (by omega), if_pos h2]
        · rw [if_neg (by omega), if_neg h2]
          congr 1
          omega

/-! ## C267: mirrored layers -/

/-- **C267, one layer**: the `ConvTranspose1d` with the same numbers as a `Conv1d` makes `n - (n + 2p - d(k-1) - 1) % s` samples of what the
`Conv1d` made of `n`, or refuses it if there would be none. -/
theorem C267_mirror (s : Spec) (n m : Nat) (h : convLen s n = .ok m) :
    convTLen s m = if (n + 2 * s.padding - s.dilation * (s.kernel - 1) - 1) % s.stride < n then
        .ok (n - (n + 2 * s.padding - s.dilation * (s.kernel - 1) - 1) % s.stride)
      else .error .runtimeError := by
  obtain ⟨hl, hn, he, rfl⟩ := (convLen_iff s n m).mp h
  have e1 : n + 2 * s.padding - s.dilation * (s.kernel - 1) - 1 = n + 2 * s.padding - s.extent := by unfold Spec.extent; omega
  rw [e1]
  have hd := Nat.div_add_mod (n + 2 * s.padding - s.extent) s.stride
  rw [Nat.mul_comm] at hd
  generalize (n + 2 * s.padding - s.extent) / s.stride = q at *
  generalize (n + 2 * s.padding - s.extent) % s.stride = r at *
  unfold convTLen
  simp only [Nat.add_sub_cancel]
  by_cases hr : r < n
  · rw [if_pos hr, if_pos ⟨hl, by omega, by omega⟩]
    congr 1
    omega
  · rw [if_neg hr]
    refine if_neg ?_
    rintro ⟨_, _, h⟩
    omega

example := C267_mirror ⟨3, 2, 0, 1⟩ 8 3 (by decide)

/-- **C267, restored**: the length comes back exactly if the stride divides `n + 2p - d(k-1) - 1`; it never grows, and less than a stride is lost. -/
theorem C267_restored (s : Spec) (n m n' : Nat) (h : convLen s n = .ok m) (h' : convTLen s m = .ok n') :
    n' ≤ n ∧ n < n' + s.stride ∧ (n' = n ↔ s.stride ∣ n + 2 * s.padding - s.dilation * (s.kernel - 1) - 1) := by
  have hs := ((convLen_iff s n m).mp h).1.2.1
  rw [C267_mirror s n m h] at h'
  split at h'
  · cases h'
    have := Nat.mod_lt (n + 2 * s.padding - s.dilation * (s.kernel - 1) - 1) hs
    refine ⟨by omega, by omega, ?_⟩
    rw [Nat.dvd_iff_mod_eq_zero]
    omega
  · exact nomatch h'

example := C267_restored ⟨3, 2, 0, 1⟩ 8 3 7 (by decide) (by decide)

/-- The stride of every layer of an encoder divides what it leaves of its own input. -/
def Divides : List Spec → Nat → Prop
  | [], _ => True
  | c :: cs, n => c.stride ∣ n + 2 * c.padding - c.dilation * (c.kernel - 1) - 1 ∧ ∀ m, convLen c n = .ok m → Divides cs m

theorem convTLen_mono (s : Spec) (m m' n n' : Nat) (h : convTLen s m = .ok n) (h' : convTLen s m' = .ok n') (hm : m < m') : n < n' := by
  obtain ⟨hl, h0, h1, rfl⟩ := (convTLen_iff s m n).mp h
  obtain ⟨_, h0', h1', rfl⟩ := (convTLen_iff s m' n').mp h'
  have : (m - 1 + 1) * s.stride ≤ (m' - 1) * s.stride := Nat.mul_le_mul_right _ (by omega)
  have := hl.2.1
  rw [Nat.add_mul, Nat.one_mul] at *
  omega

/-- **C267, autoencoders**: through any number of layers and their mirrored layers in reverse order the length never grows, and it comes back exactly if
at every layer the stride divides. -/
theorem C267_autoencoder (cs : List Spec) (n m n' : Nat) (h : encodeLen cs n = .ok m) (h' : decodeLen cs m = .ok n') :
    n' ≤ n ∧ (n' = n ↔ Divides cs n) := by
  induction cs generalizing n n' with
  | nil =>
    cases h; cases h'
    exact ⟨Nat.le_refl _, by simp [Divides]⟩
  | cons c cs ih =>
    unfold encodeLen at h
    unfold decodeLen at h'
    cases hk : convLen c n with
    | error e => rw [hk] at h; exact nomatch h
    | ok k =>
      rw [hk] at h
      cases hk' : decodeLen cs m with
      | error e => rw [hk'] at h'; exact nomatch h'
      | ok k' =>
        rw [hk'] at h'
        obtain ⟨hle, hiff⟩ := ih k k' h hk'
        change convTLen c k' = .ok n' at h'
        have hl := ((convLen_iff c n k).mp hk).1
        have up : ∃ n'', convTLen c k = .ok n'' ∧ n' ≤ n'' ∧ (n' = n'' ↔ k' = k) := by
          rcases Nat.lt_or_eq_of_le hle with hlt | rfl
          · obtain ⟨_, h0, h1, _⟩ := (convTLen_iff c k' n').mp h'
            have : (k' - 1) * c.stride ≤ (k - 1) * c.stride := Nat.mul_le_mul_right _ (by omega)
            have hk2 : convTLen c k = .ok ((k - 1) * c.stride + c.extent - 2 * c.padding) := by
              rw [convTLen_iff]
              exact ⟨hl, by omega, by omega, rfl⟩
            have := convTLen_mono c _ _ _ _ h' hk2 hlt
            exact ⟨_, hk2, by omega, by omega⟩
          · exact ⟨n', h', Nat.le_refl _, by simp⟩
        obtain ⟨n'', e1, e2, e3⟩ := up
        obtain ⟨r1, _, r3⟩ := C267_restored c n k n'' hk e1
        refine ⟨by omega, ?_⟩
        unfold Divides
        constructor
        · intro e
          have : n'' = n := by omega
          refine ⟨r3.mp this, fun j hj => ?_⟩
          rw [hk] at hj
          cases hj
          exact hiff.mp (e3.mp (by omega))
        · rintro ⟨d1, d2⟩
          have := r3.mpr d1
          have := e3.mpr (hiff.mpr (d2 k hk))
          omega

example := C267_autoencoder [⟨4, 2, 1, 1⟩, ⟨3, 2, 0, 1⟩] 8 1 6 (by decide) (by decide)

/-! ## C268: the transposed layer is the adjoint -/

/-- The inner product of two tensors. -/
def inner (x y : List (List ℝ)) : ℝ := (List.zipWith (fun r q => (List.zipWith (· * ·) r q).sum) x y).sum

theorem zipWith_sum (r q : List ℝ) (n : Nat) (hr : r.length = n) (hq : q.length = n) :
    (List.zipWith (· * ·) r q).sum = ∑ i ∈ Finset.range n, r.getD i 0 * q.getD i 0 := by
  induction n generalizing r q with
  | zero =>
    have : r = [] := List.length_eq_zero_iff.mp hr
    subst this; simp
  | succ n ih =>
    match r, q, hr, hq with
    | a :: r, b :: q, hr, hq =>
      simp only [List.zipWith_cons_cons, List.sum_cons]
      rw [ih r q (by simpa using hr) (by simpa using hq), Finset.sum_range_succ']
      simp [add_comm]

theorem inner_eq (a n : Nat) (x y : List (List ℝ)) (hx : Shaped a n x) (hy : Shaped a n y) :
    inner x y = ∑ c ∈ Finset.range a, ∑ i ∈ Finset.range n, at2 x c i * at2 y c i := by
  unfold inner
  induction a generalizing x y with
  | zero =>
    have : x = [] := List.length_eq_zero_iff.mp hx.1
    subst this; simp
  | succ a ih =>
    obtain ⟨hx1, hx2⟩ := hx
    obtain ⟨hy1, hy2⟩ := hy
    match x, y, hx1, hy1 with
    | r :: x, q :: y, hx1, hy1 =>
      simp only [List.zipWith_cons_cons, List.sum_cons]
      rw [ih x y ⟨by simpa using hx1, fun r hr => hx2 r (by simp [hr])⟩ ⟨by simpa using hy1, fun r hr => hy2 r (by simp [hr])⟩,
        zipWith_sum r q n (hx2 r (by simp)) (hy2 q (by simp)), Finset.sum_range_succ']
      simp [at2, add_comm]

/-- **C268**: where the length comes back, the transposed layer with the same weight tensor is the adjoint of the convolution:
`⟨conv x, y⟩ = ⟨x, convT y⟩` for all signals. -/
theorem C268_adjoint (s : Spec) (a b : Nat) (w : Nat → Nat → Nat → ℝ) (n m : Nat) (x y : List (List ℝ))
    (hx : Shaped a n x) (hy : Shaped b m y) (hm : convLen s n = .ok m) (hn : convTLen s m = .ok n) :
    ∃ z v, conv s a b w n x = .ok z ∧ convT s b a w m y = .ok v ∧ inner z y = inner x v := by
  refine ⟨_, _, conv_ok s a b w n m x hx.1 hm, convT_ok s b a w m n y hy.1 hn, ?_⟩
  rw [inner_eq b m _ y (shaped_range _ _ _) hy, inner_eq a n x _ hx (shaped_range _ _ _)]
  have l : ∀ o ∈ Finset.range b, (∑ t ∈ Finset.range m, at2 ((List.range b).map fun o => (List.range m).map fun t =>
      ∑ c ∈ Finset.range a, ∑ j ∈ Finset.range s.kernel, w o c j * atPad s.padding x c (t * s.stride + j * s.dilation)) o t * at2 y o t) =
      ∑ c ∈ Finset.range a, ∑ t ∈ Finset.range m, ∑ j ∈ Finset.range s.kernel,
        w o c j * atPad s.padding x c (t * s.stride + j * s.dilation) * at2 y o t := by
    intro o ho
    rw [Finset.sum_comm]
    refine Finset.sum_congr rfl fun t ht => ?_
    rw [at2_range _ _ _ _ _ (Finset.mem_range.mp ho) (Finset.mem_range.mp ht)]
    simp only [Finset.sum_mul]
  rw [Finset.sum_congr rfl l, Finset.sum_comm]
  refine Finset.sum_congr rfl fun c hc => ?_
  have r : ∀ i ∈ Finset.range n, at2 x c i * at2 ((List.range a).map fun c => (List.range n).map fun i =>
      ∑ o ∈ Finset.range b, ∑ t ∈ Finset.range m, ∑ j ∈ Finset.range s.kernel,
        if t * s.stride + j * s.dilation = i + s.padding then at2 y o t * w o c j else 0) c i =
      ∑ o ∈ Finset.range b, ∑ t ∈ Finset.range m, ∑ j ∈ Finset.range s.kernel,
        if t * s.stride + j * s.dilation = i + s.padding then at2 x c i * (at2 y o t * w o c j) else 0 := by
    intro i hi
    rw [at2_range _ _ _ _ _ (Finset.mem_range.mp hc) (Finset.mem_range.mp hi)]
    simp only [Finset.mul_sum, mul_ite, mul_zero]
  rw [Finset.sum_congr rfl r]
  conv_rhs => rw [Finset.sum_comm]
  refine Finset.sum_congr rfl fun o _ => ?_
  conv_rhs => rw [Finset.sum_comm]
  refine Finset.sum_congr rfl fun t ht => ?_
  conv_rhs => rw [Finset.sum_comm]
  refine Finset.sum_congr rfl fun j hj => ?_
  generalize hq : t * s.stride + j * s.dilation = q
  unfold atPad
  by_cases h1 : q < s.padding
  · rw [if_pos h1]
    symm
    rw [Finset.sum_eq_zero]
    · ring
    · intro i _
      rw [if_neg (by omega)]
  · rw [if_neg h1]
    by_cases h2 : q - s.padding < n
    · rw [Finset.sum_eq_single (q - s.padding)]
      · rw [if_pos (by omega)]; ring
      · intro i _ hi
        rw [if_neg (by omega)]
      · intro h; exact absurd (Finset.mem_range.mpr h2) h
    · rw [at2_big hx _ _ (by omega), Finset.sum_eq_zero]
      · ring
      · intro i hi
        rw [if_neg]
        have := Finset.mem_range.mp hi
        omega

example (w : Nat → Nat → Nat → ℝ) := C268_adjoint ⟨4, 2, 1, 1⟩ 1 2 w 8 4 [[1, 2, 3, 4, 5, 6, 7, 8]] [[1, 2, 3, 4], [5, 6, 7, 8]] ⟨rfl, by simp⟩ ⟨rfl, by simp⟩ (by decide) (by decide)

/-- The sizes of the example encoder: 8 samples, kernel 4, stride 2, padding 1 make 4 samples and back. -/
example : convLen ⟨4, 2, 1, 1⟩ 8 = .ok 4 ∧ convTLen ⟨4, 2, 1, 1⟩ 4 = .ok 8 ∧ convLen ⟨3, 2, 0, 1⟩ 8 = .ok 3 ∧ convTLen ⟨3, 2, 0, 1⟩ 3 = .ok 7 := by
  decide

/-- Two layers that restore 8 samples, and two of which the second loses one. -/
example : encodeLen [⟨4, 2, 1, 1⟩, ⟨2, 2, 0, 1⟩] 8 = .ok 2 ∧ decodeLen [⟨4, 2, 1, 1⟩, ⟨2, 2, 0, 1⟩] 2 = .ok 8 ∧
    encodeLen [⟨4, 2, 1, 1⟩, ⟨3, 2, 0, 1⟩] 8 = .ok 1 ∧ decodeLen [⟨4, 2, 1, 1⟩, ⟨3, 2, 0, 1⟩] 1 = .ok 6 := by
  decide

/-! ## C269: layers that are not training -/

theorem mapE_ok_iff {β γ : Type} (f : β → Except PyErr γ) (l : List β) (r : List γ) :
    Conv.mapE f l = .ok r ↔ List.Forall₂ (fun b c => f b = .ok c) l r := by
  induction l generalizing r with
  | nil =>
    simp only [Conv.mapE, Except.ok.injEq]
    constructor
    · rintro rfl; exact .nil
    · rintro ⟨⟩; rfl
  | cons b l ih =>
    simp only [Conv.mapE]
    cases hb : f b with
    | error e =>
      constructor
      · intro h; exact nomatch h
      · rintro ⟨⟩
        rename_i h1 _
        rw [hb] at h1
        exact nomatch h1
    | ok c =>
      cases hl : Conv.mapE f l with
      | error e =>
        constructor
        · intro h; exact nomatch h
        · rintro ⟨⟩
          rename_i h2
          rw [(ih _).mpr h2] at hl
          exact nomatch hl
      | ok cs =>
        simp only [Except.ok.injEq]
        constructor
        · rintro rfl
          exact .cons hb ((ih _).mp hl)
        · rintro ⟨⟩
          rename_i h1 h2
          rw [hb] at h1
          rw [(ih _).mpr h2] at hl
          cases h1; cases hl; rfl

/-- What the normalization does to a single example where it looks at single examples only. -/
noncomputable def Layer.normOne (L : Layer) (m : Nat) (x : List (List ℝ)) : List (List ℝ) :=
  if L.sampleNorm then Loss.sampleNorm m x
  else match L.bn with
    | none => x
    | some b => x.mapIdx fun c r => normalize (b.mean c) (b.var c) (b.weight c) (b.bias c) r

theorem norm_alone (L : Layer) (training : Bool) (h : training = false ∨ L.sampleNorm = true ∨ L.bn = none) (m : Nat)
    (ys : List (List (List ℝ))) : L.norm training m ys = .ok (L, ys.map (L.normOne m)) := by
  unfold Layer.norm Layer.normOne
  by_cases hs : L.sampleNorm = true
  · simp [hs]
  · cases hb : L.bn with
    | none => simp [hs]
    | some b =>
      have ht : training = false := by
        rcases h with h | h | h
        · exact h
        · exact absurd h hs
        · rw [hb] at h; exact nomatch h
      subst ht
      simp only [hs, batchNorm, Bool.false_eq_true, if_false, Except.map]
      congr 2
      cases L
      simp_all

/-- The activation of one example. -/
def Layer.activateOne (L : Layer) (x : List (List ℝ)) : List (List ℝ) :=
  match L.activation with
  | none => x
  | some f => x.map fun r => r.map f

theorem activate_eq (L : Layer) (ys : List (List (List ℝ))) : L.activate ys = ys.map L.activateOne := by
  unfold Layer.activate Layer.activateOne
  cases L.activation <;> simp

theorem forward_ok_iff (L : Layer) (training : Bool) (h : training = false ∨ L.sampleNorm = true ∨ L.bn = none) (keep : Nat → Nat → Nat → Bool)
    (n : Nat) (batch : List (List (List ℝ))) (L' : Layer) (out : List (List (List ℝ))) :
    L.forward training keep n batch = .ok (L', out) ↔ ∃ m ys, L.len n = .ok m ∧ List.Forall₂ (fun x y => L.l1 n x = .ok y) batch ys ∧ L' = L ∧
      out = if L.dropout then applyDropout training keep (ys.map fun y => L.activateOne (L.normOne m y))
        else ys.map fun y => L.activateOne (L.normOne m y) := by
  have e : ∀ ys : List (List (List ℝ)), ∀ m, L.activate (ys.map (L.normOne m)) = ys.map fun y => L.activateOne (L.normOne m y) := by
    intro ys m
    rw [activate_eq, List.map_map]
    rfl
  unfold Layer.forward
  cases hm : Conv.mapE (L.l1 n) batch with
  | error x =>
    constructor
    · intro h; exact nomatch h
    · rintro ⟨m, ys, _, hf, _⟩
      rw [(mapE_ok_iff _ _ _).mpr hf] at hm
      exact nomatch hm
  | ok ys =>
    cases hl : L.len n with
    | error x =>
      constructor
      · intro h; exact nomatch h
      · rintro ⟨m, ys, hl, _⟩
        exact nomatch hl
    | ok m =>
      simp only [norm_alone L training h, e, Except.ok.injEq, Prod.mk.injEq]
      constructor
      · rintro ⟨rfl, rfl⟩
        exact ⟨m, ys, rfl, (mapE_ok_iff _ _ _).mp hm, rfl, rfl⟩
      · rintro ⟨m', ys', hm', hf, rfl, rfl⟩
        rw [(mapE_ok_iff _ _ _).mpr hf] at hm
        cases hm; cases hm'
        exact ⟨rfl, rfl⟩

theorem forall2_get {β γ : Type} {R : β → γ → Prop} {l : List β} {r : List γ} (h : List.Forall₂ R l r) {e : Nat} {x : β} (hx : l[e]? = some x) :
    ∃ y, r[e]? = some y ∧ R x y := by
  induction h generalizing e with
  | nil => simp at hx
  | cons h _ ih =>
    cases e with
    | zero =>
      simp only [List.getElem?_cons_zero, Option.some.injEq] at hx
      subst hx
      exact ⟨_, by simp, h⟩
    | succ e =>
      simp only [List.getElem?_cons_succ] at hx ⊢
      exact ih hx

/-- **C269, one at a time**: a layer that is not training, or normalizes single examples (`sample_norm=True`), or does not normalize, treats every example of a
batch as it would on its own (with the same random choices), returns as many, and keeps its statistics. -/
theorem C269_alone (L : Layer) (training : Bool) (h : training = false ∨ L.sampleNorm = true ∨ L.bn = none) (keep : Nat → Nat → Nat → Bool)
    (n : Nat) (batch out : List (List (List ℝ))) (L' : Layer) (hf : L.forward training keep n batch = .ok (L', out)) :
    L' = L ∧ out.length = batch.length ∧ ∀ e x, batch[e]? = some x → ∃ y, out[e]? = some y ∧
      L.forward training (fun _ => keep e) n [x] = .ok (L, [y]) := by
  obtain ⟨m, ys, hm, hl, rfl, rfl⟩ := (forward_ok_iff L training h keep n batch L' out).mp hf
  refine ⟨rfl, ?_, ?_⟩
  · rw [hl.length_eq]
    split
    · unfold applyDropout; split <;> simp
    · simp
  · intro e x hx
    obtain ⟨y, hy, hr⟩ := forall2_get hl hx
    have one : List.Forall₂ (fun x y => L'.l1 n x = .ok y) [x] [y] := .cons hr .nil
    by_cases hd : L'.dropout = true
    · by_cases ht : training = true
      · refine ⟨(L'.activateOne (L'.normOne m y)).mapIdx fun c r => r.mapIdx fun i a => if keep e c i then a / (4 / 5) else 0, ?_, (forward_ok_iff L' training h _ n [x] L' _).mpr ⟨m, [y], hm, one, rfl, ?_⟩⟩
        · rw [if_pos hd]
          unfold applyDropout
          rw [if_pos ht]
          simp [hy]
        · rw [if_pos hd]
          unfold applyDropout
          rw [if_pos ht]
          simp
      · refine ⟨L'.activateOne (L'.normOne m y), ?_, (forward_ok_iff L' training h _ n [x] L' _).mpr ⟨m, [y], hm, one, rfl, ?_⟩⟩
        · rw [if_pos hd]
          unfold applyDropout
          rw [if_neg ht]
          simp [hy]
        · rw [if_pos hd]
          unfold applyDropout
          rw [if_neg ht]
          simp
    · refine ⟨L'.activateOne (L'.normOne m y), ?_, (forward_ok_iff L' training h _ n [x] L' _).mpr ⟨m, [y], hm, one, rfl, ?_⟩⟩
      · rw [if_neg hd]
        simp [hy]
      · rw [if_neg hd]
        simp

/-- **C269, all of them**: if such a layer accepts every example of a batch on its own, it accepts the batch. -/
theorem C269_batch (L : Layer) (training : Bool) (h : training = false ∨ L.sampleNorm = true ∨ L.bn = none) (keep : Nat → Nat → Nat → Bool)
    (n : Nat) (batch : List (List (List ℝ))) (hne : batch ≠ [])
    (each : ∀ x ∈ batch, ∃ y, L.forward training keep n [x] = .ok (L, [y])) : ∃ out, L.forward training keep n batch = .ok (L, out) := by
  have hl : ∃ m, L.len n = .ok m := by
    obtain ⟨x, hx⟩ := List.exists_mem_of_ne_nil batch hne
    obtain ⟨y, hy⟩ := each x hx
    obtain ⟨m, _, hm, _⟩ := (forward_ok_iff L training h keep n [x] L [y]).mp hy
    exact ⟨m, hm⟩
  obtain ⟨m, hm⟩ := hl
  have hf : ∃ ys, List.Forall₂ (fun x y => L.l1 n x = .ok y) batch ys := by
    clear hne
    induction batch with
    | nil => exact ⟨[], .nil⟩
    | cons x b ih =>
      obtain ⟨ys, hys⟩ := ih fun x hx => each x (List.mem_cons_of_mem _ hx)
      obtain ⟨y, hy⟩ := each x (by simp)
      obtain ⟨_, zs, _, hz, _⟩ := (forward_ok_iff L training h keep n [x] L [y]).mp hy
      obtain ⟨z, _, hz1, _, rfl⟩ := List.forall₂_cons_left_iff.mp hz
      exact ⟨z :: ys, .cons hz1 hys⟩
  obtain ⟨ys, hys⟩ := hf
  exact ⟨_, (forward_ok_iff L training h keep n batch L _).mpr ⟨m, ys, hm, hys, rfl, rfl⟩⟩

/-- **C269, no chance**: a layer that is not training, or has no dropout, gives the same whatever the random numbers are. -/
theorem C269_deterministic (L : Layer) (training : Bool) (h : training = false ∨ L.dropout = false) (keep keep' : Nat → Nat → Nat → Bool)
    (n : Nat) (batch : List (List (List ℝ))) : L.forward training keep n batch = L.forward training keep' n batch := by
  unfold Layer.forward
  rcases h with rfl | h
  · simp [applyDropout]
  · simp [h]

example (b : Norm) (keep keep' : Nat → Nat → Nat → Bool) :=
  C269_deterministic (Layer.mk false ⟨2, 1, 0, 1⟩ 1 1 (fun _ _ _ => 1) false (some b) none true) false (.inl rfl) keep keep' 3 [[[1, 2, 3]], [[4, 5, 6]]]

/-- A layer with batch normalization, leaky activation and dropout takes a batch of two examples. -/
example (b : Norm) (keep : Nat → Nat → Nat → Bool) :
    ∃ out, (Layer.mk false ⟨2, 1, 0, 1⟩ 1 1 (fun _ _ _ => 1) false (some b) (some fun a => max a (a / 5)) true).forward false keep 3
      [[[1, 2, 3]], [[4, 5, 6]]] =
      .ok (Layer.mk false ⟨2, 1, 0, 1⟩ 1 1 (fun _ _ _ => 1) false (some b) (some fun a => max a (a / 5)) true, out) := by
  have hl : convLen ⟨2, 1, 0, 1⟩ 3 = .ok 2 := by decide
  have h1 := conv_ok ⟨2, 1, 0, 1⟩ 1 1 (fun _ _ _ => 1) 3 2 [[1, 2, 3]] rfl hl
  have h2 := conv_ok ⟨2, 1, 0, 1⟩ 1 1 (fun _ _ _ => 1) 3 2 [[4, 5, 6]] rfl hl
  exact ⟨_, (forward_ok_iff _ _ (.inl rfl) _ _ _ _ _).mpr ⟨2, _, hl, .cons h1 (.cons h2 .nil), rfl, rfl⟩⟩

/-! ## C270: batch normalization while training -/

theorem channel_normalize (batch : List (List (List ℝ))) (mu va w b : Nat → ℝ) (c : Nat) :
    channel (batch.map fun x => x.mapIdx fun c r => normalize (mu c) (va c) (w c) (b c) r) c = normalize (mu c) (va c) (w c) (b c) (channel batch c) := by
  unfold channel
  induction batch with
  | nil => simp [normalize]
  | cons x batch ih =>
    simp only [List.map_cons, List.flatten_cons, List.map_map] at ih ⊢
    rw [ih]
    unfold normalize
    rw [List.map_append]
    congr 1
    rw [List.getD_eq_getElem?_getD, List.getD_eq_getElem?_getD, List.getElem?_mapIdx]
    cases x[c]? <;> simp

theorem sum_affine (l : List ℝ) (a b : ℝ) : (l.map fun x => x * a + b).sum = l.sum * a + l.length * b := by
  induction l with
  | nil => simp
  | cons x l ih => simp only [List.map_cons, List.sum_cons, ih, List.length_cons]; push_cast; ring

theorem mean_affine (l : List ℝ) (hl : l ≠ []) (a b : ℝ) : Conv.mean (l.map fun x => x * a + b) = Conv.mean l * a + b := by
  unfold Conv.mean
  have : (l.length : ℝ) ≠ 0 := by
    have := List.length_pos_iff.mpr hl
    positivity
  rw [sum_affine, List.length_map]
  field_simp

theorem variance_affine (l : List ℝ) (hl : l ≠ []) (a b : ℝ) : variance (l.map fun x => x * a + b) = variance l * a ^ 2 := by
  unfold variance
  rw [mean_affine l hl, List.map_map]
  have e : ((fun y => (y - (Conv.mean l * a + b)) ^ 2) ∘ fun x => x * a + b) = fun x => (x - Conv.mean l) ^ 2 * a ^ 2 := by
    funext x
    simp only [Function.comp]
    ring
  rw [e]
  have := mean_affine (l.map fun x => (x - Conv.mean l) ^ 2) (by simpa using hl) (a ^ 2) 0
  rw [List.map_map] at this
  simp only [Function.comp_def, add_zero] at this
  exact this

theorem variance_nonneg (l : List ℝ) : 0 ≤ variance l := by
  unfold variance Conv.mean
  refine div_nonneg (List.sum_nonneg ?_) (Nat.cast_nonneg _)
  intro a ha
  simp only [List.mem_map] at ha
  obtain ⟨x, _, rfl⟩ := ha
  positivity

theorem normalize_affine (mu v w b : ℝ) (l : List ℝ) :
    normalize mu v w b l = l.map fun x => x * (w / Real.sqrt (v + 1 / 10 ^ 5)) + (b - mu * (w / Real.sqrt (v + 1 / 10 ^ 5))) := by
  unfold normalize
  refine List.map_congr_left fun x _ => ?_
  ring

/-- **C270, normalised**: while training, batch normalization makes the values of a channel in the whole batch have the mean `bias` and the variance
`weight² v / (v + 1e-5)`, where `v` was their variance. -/
theorem C270_normalised (b b' : Norm) (m : Nat) (batch out : List (List (List ℝ))) (h : batchNorm b true m batch = .ok (b', out)) (c : Nat)
    (hc : channel batch c ≠ []) :
    Conv.mean (channel out c) = b.bias c ∧
    variance (channel out c) = b.weight c ^ 2 * (variance (channel batch c) / (variance (channel batch c) + 1 / 10 ^ 5)) := by
  unfold batchNorm at h
  rw [if_pos rfl] at h
  split at h
  · exact nomatch h
  · simp only [Except.ok.injEq, Prod.mk.injEq] at h
    obtain ⟨_, rfl⟩ := h
    rw [channel_normalize batch (fun c => Conv.mean (channel batch c)) (fun c => variance (channel batch c)) b.weight b.bias c, normalize_affine]
    have hv := variance_nonneg (channel batch c)
    constructor
    · rw [mean_affine _ hc]; ring
    · rw [variance_affine _ hc]
      generalize variance (channel batch c) = v at *
      have h0 : 0 < v + 1 / 10 ^ 5 := by positivity
      rw [div_pow, Real.sq_sqrt h0.le]
      field_simp

example (b : Norm) : ∃ out : List (List (List ℝ)), Conv.mean (channel out 0) = b.bias 0 := by
  obtain ⟨r, h⟩ : ∃ r, batchNorm b true 2 [[[1, 2]], [[3, 5]]] = .ok r := ⟨_, (if_pos rfl).trans (if_neg (by decide))⟩
  exact ⟨r.2, (C270_normalised b r.1 2 [[[1, 2]], [[3, 5]]] r.2 h 0 (by simp [channel])).1⟩

/-- A batch that is normalised: two examples of one channel. -/
example (b : Norm) : ∃ r, batchNorm b true 2 [[[1, 2]], [[3, 5]]] = .ok r ∧ channel [[[1, 2]], [[3, 5]]] 0 ≠ [] :=
  ⟨_, (if_pos rfl).trans (if_neg (by decide)), by simp [channel]⟩

/-- `k` training passes over the same batch. -/
noncomputable def passes (m : Nat) (batch : List (List (List ℝ))) : Nat → Norm → Except PyErr Norm
  | 0, b => .ok b
  | k + 1, b => (batchNorm b true m batch).bind fun r => passes m batch k r.1

/-- **C270, running**: after `k` training passes over batches with the mean `μ` the running mean, which is what counts once training is over, is
`μ + 0.9ᵏ (r - μ)`, and the running variance `u + 0.9ᵏ (v - u)` with the unbiased variance `u`; factor and shift stay. -/
theorem C270_running (m : Nat) (batch : List (List (List ℝ))) (h1 : batch.length * m ≠ 1) (k : Nat) (b : Norm) :
    ∃ b', passes m batch k b = .ok b' ∧ b'.weight = b.weight ∧ b'.bias = b.bias ∧ ∀ c,
      b'.mean c = Conv.mean (channel batch c) + (9 / 10) ^ k * (b.mean c - Conv.mean (channel batch c)) ∧
      b'.var c = variance (channel batch c) * ((batch.length * m : Nat) / ((batch.length * m : Nat) - 1)) +
        (9 / 10) ^ k * (b.var c - variance (channel batch c) * ((batch.length * m : Nat) / ((batch.length * m : Nat) - 1))) := by
  induction k generalizing b with
  | zero => exact ⟨b, rfl, rfl, rfl, fun c => ⟨by ring, by ring⟩⟩
  | succ k ih =>
    unfold passes batchNorm
    rw [if_pos rfl, if_neg h1]
    simp only [Except.bind]
    obtain ⟨b', e, hw, hb, hc⟩ := ih _
    refine ⟨b', e, hw, hb, fun c => ?_⟩
    obtain ⟨h2, h3⟩ := hc c
    rw [h2, h3]
    constructor <;> simp only [] <;> ring

example (b : Norm) := C270_running 2 [[[1, 2]], [[3, 5]]] (by decide) 4 b

/-- **C270, single values**: while training, one example of one sample is refused with ValueError. -/
theorem C270_single (b : Norm) (x : List (List ℝ)) : batchNorm b true 1 [x] = .error .valueError := by
  unfold batchNorm
  rw [if_pos rfl]
  exact if_pos (by simp)

/-! ## C271: `sample_norm` of images -/

/-- Every number divided by the root of the mean square of the feature maps at its place. -/
def PixelNormed (N C H W : Nat) (x y : Nat → Nat → Nat → Nat → ℝ) : Prop :=
  ∀ e < N, ∀ c < C, ∀ h < H, ∀ v < W,
    y e c h v = x e c h v / Real.sqrt ((∑ k ∈ Finset.range C, x e k h v ^ 2) * (1 / C) + 1 / 10 ^ 7)

/-- **C271, one row**: a single example of a single row is normalised feature map by feature map. -/
theorem C271_single_row (C W : Nat) (x : Nat → Nat → Nat → Nat → ℝ) :
    ∃ y, sampleNorm4 1 C 1 W x = .ok ((1, C, 1, W), y) ∧ PixelNormed 1 C 1 W x y := by
  by_cases hC : C = 1
  · subst hC
    refine ⟨_, rfl, ?_⟩
    intro e he c hc h hh v hv
    have : e = 0 := by omega
    have : h = 0 := by omega
    have : c = 0 := by omega
    subst e; subst h; subst c
    rfl
  · refine ⟨_, (if_neg hC).trans (if_pos rfl), ?_⟩
    · intro e he c hc h hh v hv
      have : e = 0 := by omega
      have : h = 0 := by omega
      subst e; subst h
      rfl

/-- **C271, refuted**: for anything else (`N` examples with `H` rows, `N H > 1`) it is not: unless there is one feature map, or as many as rows in the whole batch, it
raises RuntimeError; with one feature map the result has `N H` of them; and with `N H` feature maps there are inputs for which the
result is not the normalised tensor. -/
theorem C271_images_refuted (N C H W : Nat) (hN : 0 < N) (hH : 0 < H) (hW : 0 < W) (hNH : 1 < N * H) :
    (∀ x, C ≠ 1 → C ≠ N * H → sampleNorm4 N C H W x = .error .runtimeError) ∧
    (∀ x, ∃ y, sampleNorm4 N 1 H W x = .ok ((N, N * H, H, W), y)) ∧
    (∃ x y, sampleNorm4 N (N * H) H W x = .ok ((N, N * H, H, W), y) ∧ ¬ PixelNormed N (N * H) H W x y) := by
  refine ⟨?_, ?_, ?_⟩
  · intro x h1 h2
    unfold sampleNorm4
    exact (if_neg h2).trans ((if_neg (by omega)).trans (if_neg h1))
  · intro x
    exact ⟨_, (if_neg (by omega)).trans ((if_neg (by omega)).trans (if_pos rfl))⟩
  · refine ⟨fun e c h v => if e = 0 ∧ h = 0 then 0 else 1, _, if_pos rfl, ?_⟩
    intro hp
    have hw : ∃ e h, e < N ∧ h < H ∧ ¬(e = 0 ∧ h = 0) := by
      by_cases hH1 : H = 1
      · subst hH1
        exact ⟨1, 0, by omega, by omega, by omega⟩
      · exact ⟨0, 1, hN, by omega, by omega⟩
    obtain ⟨e, h, he, hh, hne⟩ := hw
    have key := hp e he 0 (by omega) h hh 0 hW
    simp only [Nat.zero_div, Nat.zero_mod, hne, if_false, and_self, if_true] at key
    have hC : ((N * H : Nat) : ℝ) ≠ 0 := by
      have : (0 : ℝ) < ((N * H : Nat) : ℝ) := by exact_mod_cast (by omega : 0 < N * H)
      exact this.ne'
    have e1 : (∑ k ∈ Finset.range (N * H), (1 : ℝ) ^ 2) * (1 / ((N * H : Nat) : ℝ)) = 1 := by
      simp only [one_pow, Finset.sum_const, Finset.card_range, nsmul_eq_mul, mul_one]
      field_simp
    have e0 : (∑ k ∈ Finset.range (N * H), (0 : ℝ) ^ 2) * (1 / ((N * H : Nat) : ℝ)) = 0 := by simp
    rw [e1, e0] at key
    have : Real.sqrt (0 + 1 / 10 ^ 7) < Real.sqrt (1 + 1 / 10 ^ 7) := Real.sqrt_lt_sqrt (by norm_num) (by norm_num)
    have h0 : 0 < Real.sqrt (0 + 1 / 10 ^ 7) := Real.sqrt_pos.mpr (by norm_num)
    rw [div_eq_div_iff h0.ne' (h0.trans this).ne'] at key
    linarith

/-! ## C272, C273 -/

/-- **C272**: `model_hash` raises TypeError for every model: the text of the model is given to hashlib as it is. -/
theorem C272_model_hash_refuted (digest : List UInt8 → String) (repr : String) (params : List (List UInt8)) :
    modelHash digest repr params = .error .typeError := rfl

/-- **C273, gradients**: `gradients(network)` lists nothing while no parameter has a gradient, and raises IndexError as soon as one has. -/
theorem C273_gradients_refuted (ps : List (String × Bool)) :
    gradients ps = if ps.any Prod.snd then .error .indexError else .ok [] := by
  induction ps with
  | nil => rfl
  | cons p ps ih =>
    obtain ⟨n, b⟩ := p
    cases b
    · simp only [gradients, ih, List.any_cons, Bool.false_or]
    · simp [gradients, firstOf, Except.bind]

/-- **C273** (why): `t[0]` of a tensor is there exactly if its first axis has an element; a tensor without axes, such as the minimum of a gradient, has none (IndexError). -/
theorem C273_first (shape : List Nat) :
    (firstOf shape = .ok () ↔ ∃ n rest, shape = (n + 1) :: rest) ∧ (firstOf shape = .error .indexError ↔ ¬ ∃ n rest, shape = (n + 1) :: rest) := by
  match shape with
  | [] => simp [firstOf]
  | 0 :: _ => simp [firstOf]
  | (n + 1) :: r => simp [firstOf]

theorem events_append (debug dropped : Bool) (s : Grads) (a b : List Event) :
    events debug dropped s (a ++ b) =
      match events debug dropped s a with
      | (s', none) => events debug dropped s' b
      | r => r := by
  induction a generalizing s with
  | nil => rfl
  | cons e a ih =>
    simp only [List.cons_append, events]
    cases event debug dropped s e with
    | error x => rfl
    | ok s' => exact ih s'

/-- **C273, debugging**: with `debug_gradient=True` a new trainer raises IndexError in its first batch, after a single step of the critic and before the first of the
generator (if the critic has an iteration). -/
theorem C273_debug_refuted (dropped : Bool) (n : Nat) (hn : 0 < n) (more : List Event) :
    ∃ s, events true dropped ⟨false, false, 0, 0⟩ (batchEvents n ++ more) = (s, some .indexError) ∧ s.stepsD = 1 ∧ s.stepsG = 0 := by
  obtain ⟨n, rfl⟩ : ∃ k, n = k + 1 := ⟨n - 1, by omega⟩
  refine ⟨⟨false, true, 0, 1⟩, ?_, rfl, rfl⟩
  cases n with
  | zero => cases dropped <;> rfl
  | succ n =>
    simp only [batchEvents, List.replicate_succ, List.flatten_cons, List.cons_append, List.nil_append]
    cases dropped <;> rfl

theorem critic_events (dropped : Bool) (n : Nat) (s : Grads) :
    ∃ d, events false dropped s (List.replicate n [Event.zeroD, .stepD]).flatten = (⟨s.g, d, s.stepsG, s.stepsD + n⟩, none) := by
  induction n generalizing s with
  | zero => exact ⟨s.d, rfl⟩
  | succ n ih =>
    simp only [List.replicate_succ, List.flatten_cons, List.cons_append, List.nil_append, events, event, Except.map, Bool.false_eq_true, if_false]
    obtain ⟨d, hd⟩ := ih ⟨s.g, true, s.stepsG, s.stepsD + 1⟩
    refine ⟨d, hd.trans ?_⟩
    simp only [Prod.mk.injEq, Grads.mk.injEq, and_true, true_and]
    omega

/-- **C273, without debugging**: every batch makes `n` steps of the critic, then one of the generator, and nothing is raised. -/
theorem C273_plain (dropped : Bool) (n k : Nat) (s : Grads) :
    ∃ s', events false dropped s (List.replicate k (batchEvents n)).flatten = (s', none) ∧ s'.stepsD = s.stepsD + k * n ∧ s'.stepsG = s.stepsG + k := by
  induction k generalizing s with
  | zero => exact ⟨s, rfl, by simp, rfl⟩
  | succ k ih =>
    simp only [List.replicate_succ, List.flatten_cons]
    rw [events_append]
    have one : ∃ g d, events false dropped s (batchEvents n) = (⟨g, d, s.stepsG + 1, s.stepsD + n⟩, none) := by
      unfold batchEvents
      rw [List.append_assoc, events_append]
      simp only [events, event, Except.map, Bool.false_eq_true, if_false]
      rw [events_append]
      obtain ⟨d, hd⟩ := critic_events dropped n ⟨s.g && !dropped, s.d && !dropped, s.stepsG, s.stepsD⟩
      rw [hd]
      exact ⟨true, d && !dropped, rfl⟩
    obtain ⟨g, d, h1⟩ := one
    rw [h1]
    obtain ⟨s', h2, h3, h4⟩ := ih ⟨g, d, s.stepsG + 1, s.stepsD + n⟩
    refine ⟨s', h2, ?_, ?_⟩
    · rw [h3]; simp only []; ring
    · rw [h4]; simp only []; omega

theorem ones_ok (x : List (List ℝ)) (hx : x.length = 1) : ∃ z, conv ⟨4, 2, 1, 1⟩ 1 2 (fun _ _ _ => 1) 8 x = .ok z := by
  obtain ⟨z, h, _⟩ := (C266_size ⟨4, 2, 1, 1⟩ 1 2 (fun _ _ _ => (1 : ℝ)) 8 x).1 (by decide) (by decide) (by decide) (by decide) hx (by decide)
  exact ⟨z, h⟩
example : ∃ z z', conv ⟨4, 2, 1, 1⟩ 1 2 (fun _ _ _ => 1) 8 [[1, 2, 3, 4, 5, 6, 7, 8]] = .ok z ∧
    conv ⟨4, 2, 1, 1⟩ 1 2 (fun _ _ _ => 1) 8 [[1, 2, 3, 0, 0, 0, 0, 0]] = .ok z' ∧ at2 z 1 0 = at2 z' 1 0 := by
  obtain ⟨z, h⟩ := ones_ok [[1, 2, 3, 4, 5, 6, 7, 8]] rfl
  obtain ⟨z', h'⟩ := ones_ok [[1, 2, 3, 0, 0, 0, 0, 0]] rfl
  refine ⟨z, z', h, h', C266_local _ _ _ _ _ _ _ z z' h h' 0 ?_ 1⟩
  intro c hc i _ h2
  have hc : c = 0 := by omega
  have h3 : i < 3 := by simpa using h2
  subst hc
  match i, h3 with
  | 0, _ => rfl
  | 1, _ => rfl
  | 2, _ => rfl
example : ∃ z z'' : List (List ℝ), ∀ o t, at2 z'' o t = 2 * at2 z o t + 3 * at2 z o t := by
  obtain ⟨z, h⟩ := ones_ok [[1, 2, 3, 4, 5, 6, 7, 8]] rfl
  obtain ⟨z'', h''⟩ := ones_ok [[5, 10, 15, 20, 25, 30, 35, 40]] rfl
  refine ⟨z, z'', C266_linear _ _ _ _ _ 2 3 _ _ _ z z z'' h h h'' ?_⟩
  intro c i
  match c, i with
  | 0, 0 => norm_num [at2]
  | 0, 1 => norm_num [at2]
  | 0, 2 => norm_num [at2]
  | 0, 3 => norm_num [at2]
  | 0, 4 => norm_num [at2]
  | 0, 5 => norm_num [at2]
  | 0, 6 => norm_num [at2]
  | 0, 7 => norm_num [at2]
  | 0, i + 8 => norm_num [at2]
  | c + 1, i => norm_num [at2]
example : ∃ z', conv ⟨4, 2, 1, 1⟩ 1 2 (fun _ _ _ => 1) 10 [[0, 0, 1, 2, 3, 4, 5, 6, 7, 8]] = .ok z' := by
  obtain ⟨z, h⟩ := ones_ok [[1, 2, 3, 4, 5, 6, 7, 8]] rfl
  obtain ⟨m, z', h', _⟩ := C266_delay _ _ _ _ _ _ z h
  exact ⟨z', h'⟩
/-- A layer with batch normalization, not training, answers every example of three samples in one channel. -/
theorem layer_ok (b : Norm) (keep : Nat → Nat → Nat → Bool) (x : List (List ℝ)) (hx : x.length = 1) :
    ∃ y, (Layer.mk false ⟨2, 1, 0, 1⟩ 1 1 (fun _ _ _ => 1) false (some b) none false).forward false keep 3 [x] =
      .ok (Layer.mk false ⟨2, 1, 0, 1⟩ 1 1 (fun _ _ _ => 1) false (some b) none false, [y]) := by
  have hl : convLen ⟨2, 1, 0, 1⟩ 3 = .ok 2 := by decide
  exact ⟨_, (forward_ok_iff _ _ (.inl rfl) _ _ _ _ _).mpr ⟨2, _, hl, .cons (conv_ok ⟨2, 1, 0, 1⟩ 1 1 (fun _ _ _ => 1) 3 2 x hx hl) .nil, rfl, rfl⟩⟩
example (b : Norm) (keep : Nat → Nat → Nat → Bool) : ∃ out : List (List (List ℝ)), out.length = 2 := by
  obtain ⟨out, h⟩ := C269_batch (Layer.mk false ⟨2, 1, 0, 1⟩ 1 1 (fun _ _ _ => 1) false (some b) none false) false (.inl rfl) keep 3
    [[[1, 2, 3]], [[4, 5, 6]]] (by simp) (by intro x hx; simp at hx; rcases hx with rfl | rfl <;> exact layer_ok b keep _ rfl)
  exact ⟨out, (C269_alone _ false (.inl rfl) keep 3 _ out _ h).2.1⟩

end Zounds.Blocks
