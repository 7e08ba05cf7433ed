import Verif.Model.Resample
import Verif.Props.Audio
import Mathlib.Tactic.Common
import Mathlib.Tactic.Linarith
import Mathlib.Tactic.Ring
import Mathlib.Algebra.Field.Rat

/-!
# C116–C124: `Resampler`

The native library is arbitrary in every theorem: any state, any answers.
-/

namespace Zounds.Resample
open Zounds.Audio (Raw RateArg Audio squeezed silence)
open Zounds.Time (SampleRate supportedRates)

variable {σ α : Type} [Field α]

/-! ## Specification -/

/-- The frames of an audio array: one list of numbers, one per channel, for each point in time. -/
def frames (a : Audio α) : List (List α) :=
  match a.data with
  | .vec xs => xs.map fun x => [x]
  | .mat _ rows => rows
  | _ => []

/-- The chunk's numbers lie in memory frame after frame. -/
def Contiguous (c : Chunk α) : Prop := c.memory = (frames c.audio).flatten

/-- Samples per second. -/
def hz (r : SampleRate) : Nat := r.samplesPerSecond.toNat

/-- `k` is the whole number nearest to `a / b`, the even one when two are equally near. -/
def Nearest (k a b : Nat) : Prop :=
  2 * a ≤ 2 * (k * b) + b ∧ 2 * (k * b) ≤ 2 * a + b ∧
    ((2 * a = 2 * (k * b) + b ∨ 2 * (k * b) = 2 * a + b) → k % 2 = 0)

/-- The library keeps to its contract: no more frames than it was told there is room for, each with one number per channel. -/
def Honest (lib : Lib σ α) (nch : Nat) : Prop :=
  ∀ s req, (lib.process s req).2.1.length ≤ req.outputFrames ∧ ∀ f ∈ (lib.process s req).2.1, f.length = nch

/-- The frames the library answers with when given these requests one after the other. -/
def answers (lib : Lib σ α) : σ → List (Request α) → List (List (List α))
  | _, [] => []
  | s, r :: rs => (lib.process s r).2.1 :: answers lib (lib.process s r).1 rs

/-- No request gets a return code other than zero. -/
def NoError (lib : Lib σ α) : Prop := ∀ s req, (lib.process s req).2.2 = 0

/-- Audio as a program holds it: a vector, or a matrix of `c ≥ 1` numbers per sample. -/
def Shaped (a : Audio α) (c : Nat) : Prop :=
  (c = 1 ∧ ∃ xs, a.data = .vec xs) ∨ ∃ rows, a.data = .mat c rows ∧ ∀ r ∈ rows, r.length = c

/-! ## rounding -/

theorem roundDiv_nearest (a b : Nat) (hb : 0 < b) : Nearest (roundDiv a b) a b := by
  have h1 := Nat.div_add_mod a b
  have h2 := Nat.mod_lt a hb
  have h3 : b * (a / b) = a / b * b := Nat.mul_comm _ _
  have h4 : (a / b + 1) * b = a / b * b + b := by ring
  unfold Nearest roundDiv
  simp only []
  generalize hq : a / b = q at *
  generalize hr : a % b = r at *
  split_ifs <;> (try rw [h4]) <;> generalize q * b = z at * <;> omega

theorem nearest_unique {k l a b : Nat} (hb : 0 < b) (hk : Nearest k a b) (hl : Nearest l a b) : k = l := by
  obtain ⟨k1, k2, k3⟩ := hk
  obtain ⟨l1, l2, l3⟩ := hl
  have key : ∀ {k l : Nat}, 2 * a ≤ 2 * (k * b) + b → 2 * (l * b) ≤ 2 * a + b → l ≤ k + 1 := by
    intro k l h1 h2
    by_contra hc
    have h : (k + 2) * b ≤ l * b := Nat.mul_le_mul_right b (by omega)
    have h' : (k + 2) * b = k * b + 2 * b := by ring
    generalize k * b = x at *
    generalize l * b = y at *
    omega
  have e1 := key k1 l2
  have e2 := key l1 k2
  rcases Nat.lt_trichotomy k l with h | h | h
  · have hl' : l = k + 1 := by omega
    subst hl'
    have h' : (k + 1) * b = k * b + b := by ring
    have h'' : 2 * a = 2 * (k * b) + b := by generalize k * b = x at *; omega
    have p1 := k3 (Or.inl h'')
    have p2 := l3 (Or.inr (by rw [h']; generalize k * b = x at *; omega))
    omega
  · exact h
  · have hl' : k = l + 1 := by omega
    subst hl'
    have h' : (l + 1) * b = l * b + b := by ring
    have h'' : 2 * a = 2 * (l * b) + b := by generalize l * b = x at *; omega
    have p1 := l3 (Or.inl h'')
    have p2 := k3 (Or.inr (by rw [h']; generalize l * b = x at *; omega))
    omega

/-! ## one call -/

theorem flatten_length {c : Nat} {l : List (List α)} (h : ∀ f ∈ l, f.length = c) : l.flatten.length = l.length * c := by
  induction l with
  | nil => simp
  | cons f l ih =>
    simp only [List.flatten_cons, List.length_append, List.length_cons]
    rw [ih (fun g hg => h g (by simp [hg])), h f (by simp)]
    ring

theorem chunk_flatten {c m : Nat} {l : List (List α)} (h : ∀ f ∈ l, f.length = c) (hm : l.length = m) :
    ((List.range m).map fun i => (l.flatten.drop (i * c)).take c) = l := by
  subst hm
  induction l with
  | nil => simp
  | cons f l ih =>
    have hf : f.length = c := h f (by simp)
    rw [List.length_cons, List.range_succ_eq_map, List.map_cons, List.map_map]
    congr 1
    · simp [← hf]
    · conv_rhs => rw [← ih (fun g hg => h g (by simp [hg]))]
      apply List.map_congr_left
      intro i _
      simp only [Function.comp, List.flatten_cons]
      have : (i + 1) * c = f.length + i * c := by rw [hf]; ring
      rw [Nat.succ_eq_add_one, this, List.drop_append]
      rw [List.drop_eq_nil_of_le (Nat.le_add_right _ _)]
      simp

theorem squeezed_len {m c : Nat} (hc : 1 ≤ c) {k : Nat} (h : rawLen (squeezed m c (0 : α)) = .ok k)
    (hk : ¬ m * c < k * c) : k = m ∧ m ≠ 1 := by
  unfold squeezed at h
  split_ifs at h with h1 h2 h3
  · simp [rawLen] at h
  · simp only [rawLen, List.length_replicate, Except.ok.injEq] at h
    subst h1
    have : 1 * c < k * c := Nat.mul_lt_mul_of_pos_right (by omega) (by omega)
    exact absurd this hk
  · simp only [rawLen, List.length_replicate, Except.ok.injEq] at h; exact ⟨h.symm, h1⟩
  · simp only [rawLen, List.length_replicate, Except.ok.injEq] at h; exact ⟨h.symm, h1⟩

/-- The frames of the array made of complete frames. -/
theorem frames_shaped {m c : Nat} (hm : m ≠ 1) {l : List (List α)} (hl : l.length = m) (hf : ∀ f ∈ l, f.length = c)
    (r : SampleRate) : frames (⟨r, shaped m c l.flatten⟩ : Audio α) = l := by
  unfold shaped frames
  by_cases h1 : c = 1
  · subst h1
    simp only [hm, if_false, if_true]
    clear hl hm
    induction l with
    | nil => simp
    | cons f l ih =>
      have : f.length = 1 := hf f (by simp)
      obtain ⟨x, rfl⟩ := List.length_eq_one_iff.mp this
      simp [ih (fun g hg => hf g (by simp [hg]))]
  · simp only [hm, h1, if_false]
    exact chunk_flatten hf hl

theorem flatten_pad {m c : Nat} {l : List (List α)} (hl : l.length ≤ m) (hf : ∀ f ∈ l, f.length = c) :
    l.flatten ++ List.replicate (m * c - l.flatten.length) (0 : α) =
      (l ++ List.replicate (m - l.length) (List.replicate c 0)).flatten := by
  rw [List.flatten_append, flatten_length hf]
  congr 1
  have : m * c - l.length * c = (m - l.length) * c := by rw [Nat.sub_mul]
  rw [this, List.flatten_replicate_replicate]

theorem pad_frames_length {m c : Nat} {l : List (List α)} (hf : ∀ f ∈ l, f.length = c) :
    ∀ f ∈ l ++ List.replicate (m - l.length) (List.replicate c (0 : α)), f.length = c := by
  intro f hfm
  rcases List.mem_append.mp hfm with h | h
  · exact hf f h
  · rw [List.mem_replicate] at h
    rw [h.2]; simp

theorem shaped_length {m c : Nat} (hm : m ≠ 1) {l : List (List α)} (hl : l.length = m) (hf : ∀ f ∈ l, f.length = c)
    (r : SampleRate) : (⟨r, shaped m c l.flatten⟩ : Audio α).length = m ∧ Shaped (⟨r, shaped m c l.flatten⟩ : Audio α) c := by
  unfold shaped Shaped Audio.length
  rw [if_neg hm]
  by_cases h1 : c = 1
  · rw [if_pos h1]
    refine ⟨?_, Or.inl ⟨h1, _, rfl⟩⟩
    simp only []
    rw [flatten_length hf, hl, h1, Nat.mul_one]
  · rw [if_neg h1]
    refine ⟨by simp, Or.inr ⟨_, rfl, ?_⟩⟩
    rw [chunk_flatten hf hl]
    exact hf

/-- Everything one successful call to the wrapper does. -/
theorem call_spec (lib : Lib σ α) (rs : Resample σ) (hc : 1 ≤ rs.nchannels) (hon : Honest lib rs.nchannels) (mem : List α)
    (n : Nat) (eoi : Bool) {rs' : Resample σ} {out : Raw α} {req : Request α}
    (h : rs.call lib mem n eoi = .ok (rs', out, req)) :
    req = ⟨mem.take (n * rs.nchannels), n, rs.outSize n, eoi, rs.newRate, rs.origRate⟩ ∧
    rs' = { rs with state := (lib.process rs.state req).1 } ∧ rs.outSize n ≠ 1 ∧
    out = shaped (rs.outSize n) rs.nchannels
      ((lib.process rs.state req).2.1 ++
        List.replicate (rs.outSize n - (lib.process rs.state req).2.1.length) (List.replicate rs.nchannels 0)).flatten := by
  unfold Resample.call at h
  simp only [] at h
  split at h
  · simp at h
  · rename_i k hk
    split_ifs at h with hmem hcode
    · obtain ⟨rfl, hm⟩ := squeezed_len hc hk hmem
      simp only [Except.ok.injEq, Prod.mk.injEq] at h
      obtain ⟨h1, h2, h3⟩ := h
      subst h3
      refine ⟨rfl, h1.symm, hm, ?_⟩
      rw [← h2]
      congr 1
      exact flatten_pad (hon _ _).1 (hon _ _).2

/-- A call succeeds unless the buffer has exactly one frame. -/
theorem call_ok (lib : Lib σ α) (rs : Resample σ) (hne : NoError lib) (mem : List α)
    (n : Nat) (eoi : Bool) (hm : rs.outSize n ≠ 1) : ∃ r, rs.call lib mem n eoi = .ok r := by
  unfold Resample.call
  simp only []
  have h : rawLen (squeezed (rs.outSize n) rs.nchannels (0 : α)) = .ok (rs.outSize n) := by
    unfold squeezed
    rw [if_neg hm]
    split_ifs <;> simp [rawLen]
  rw [h]
  simp only [Nat.lt_irrefl, if_false]
  rw [if_neg (by rw [hne]; simp)]
  exact ⟨_, rfl⟩

/-! ## the stream -/

theorem apply_resample (lib : Lib σ α) (target : RateArg) (rs : Resample σ) (hc : 1 ≤ rs.nchannels)
    (hon : Honest lib rs.nchannels) (c : Chunk α) (fin : Bool) {mode' : Mode σ} {a : Audio α} {reqs : List (Request α)}
    (h : apply lib target (.resample rs) c fin = .ok (mode', a, reqs)) :
    ∃ req, reqs = [req] ∧
      req = ⟨c.memory.take (c.audio.length * rs.nchannels), c.audio.length, rs.outSize c.audio.length, fin, rs.newRate,
        rs.origRate⟩ ∧
      mode' = .resample { rs with state := (lib.process rs.state req).1 } ∧ rs.outSize c.audio.length ≠ 1 ∧
      target.isAudio = true ∧ a.rate = target.rate ∧
      frames a = (lib.process rs.state req).2.1 ++
        List.replicate (rs.outSize c.audio.length - (lib.process rs.state req).2.1.length) (List.replicate rs.nchannels 0) ∧
      a.length = rs.outSize c.audio.length ∧ Shaped a rs.nchannels := by
  unfold apply at h
  simp only [] at h
  split at h
  · simp at h
  · rename_i rs' out req hcall
    obtain ⟨h1, h2, h3, h4⟩ := call_spec lib rs hc hon _ _ _ hcall
    split at h
    · simp at h
    · rename_i b hb
      simp only [Except.ok.injEq, Prod.mk.injEq] at h
      obtain ⟨e1, e2, e3⟩ := h
      have hb' := ((Audio.C34_new out target).1 b).mp hb
      obtain ⟨hb1, hb2, -⟩ := hb'
      rw [← e2, hb1]
      rw [h2] at e1
      set l := (lib.process rs.state req).2.1 ++
        List.replicate (rs.outSize c.audio.length - (lib.process rs.state req).2.1.length) (List.replicate rs.nchannels 0)
        with hl
      have hlen : l.length = rs.outSize c.audio.length := by
        have := (hon rs.state req).1
        rw [hl, List.length_append, List.length_replicate]
        rw [h1] at this ⊢
        simp only [] at this
        omega
      have hfl : ∀ f ∈ l, f.length = rs.nchannels := pad_frames_length (hon _ _).2
      refine ⟨req, e3.symm, h1, e1.symm, h3, hb2, rfl, ?_, ?_, ?_⟩
      · rw [h4]; exact frames_shaped h3 hlen hfl _
      · rw [h4]; exact (shaped_length h3 hlen hfl _).1
      · rw [h4]; exact (shaped_length h3 hlen hfl _).2

/-- The request made for a chunk. -/
def requestFor (nch new orig : Nat) (c : Chunk α) (fin : Bool) : Request α :=
  ⟨c.memory.take (c.audio.length * nch), c.audio.length, roundDiv (c.audio.length * new) orig, fin, new, orig⟩

/-- What comes out for a chunk, given the frames the library answered with. -/
def OutputFor (target : RateArg) (nch new orig : Nat) (c : Chunk α) (gen : List (List α)) (a : Audio α) : Prop :=
  a.rate = target.rate ∧ Shaped a nch ∧ a.length = roundDiv (c.audio.length * new) orig ∧ a.length ≠ 1 ∧
    frames a = gen ++ List.replicate (a.length - gen.length) (List.replicate nch 0)

theorem runFrom_resample (lib : Lib σ α) (target : RateArg) (stream : List (Chunk α × Bool)) :
    ∀ (rs : Resample σ), 1 ≤ rs.nchannels → Honest lib rs.nchannels →
    ∀ {outs : List (Audio α)} {reqs : List (Request α)}, runFrom lib target (.resample rs) stream = .ok (outs, reqs) →
      reqs = stream.map (fun p => requestFor rs.nchannels rs.newRate rs.origRate p.1 p.2) ∧
      List.Forall₂ (fun (p : (Chunk α × Bool) × List (List α)) a =>
        OutputFor target rs.nchannels rs.newRate rs.origRate p.1.1 p.2 a) (stream.zip (answers lib rs.state reqs)) outs ∧
      outs.length = stream.length := by
  induction stream with
  | nil =>
    intro rs _ _ outs reqs h
    simp only [runFrom, Except.ok.injEq, Prod.mk.injEq] at h
    obtain ⟨rfl, rfl⟩ := h
    simp
  | cons p rest ih =>
    intro rs hc hon outs reqs h
    obtain ⟨c, fin⟩ := p
    simp only [runFrom] at h
    split at h
    · simp at h
    · rename_i mode' a reqs1 happ
      obtain ⟨req, e1, e2, e3, e4, e5, e6, e7, e8, e9⟩ := apply_resample lib target rs hc hon c fin happ
      split at h
      · simp at h
      · rename_i as reqs' hrest
        simp only [Except.ok.injEq, Prod.mk.injEq] at h
        obtain ⟨rfl, rfl⟩ := h
        subst e3
        obtain ⟨i1, i2, i3⟩ := ih { rs with state := (lib.process rs.state req).1 } hc hon hrest
        subst e1
        refine ⟨?_, ?_, by simp [i3]⟩
        · rw [List.map_cons, ← i1, e2]; rfl
        · simp only [List.singleton_append, answers, List.zip_cons_cons, List.forall₂_cons]
          refine ⟨⟨e6, e9, e8, by rw [e8]; exact e4, ?_⟩, i2⟩
          rw [e7, e8]

/-- The request with which the library is warmed up: one second of silence at the target rate. -/
def warmUp (new orig nch : Nat) : Request α :=
  ⟨List.replicate (new * nch) 0, new, roundDiv (new * new) orig, false, new, orig⟩

theorem supported_pos {r : SampleRate} (h : r ∈ supportedRates) : 0 < hz r ∧ hz r ≠ 1 := by
  revert r; decide

theorem supported_square {r q : SampleRate} (h : r ∈ supportedRates) (h' : q ∈ supportedRates) :
    roundDiv (hz r * hz r) (hz q) ≠ 1 := by
  have : ∀ r ∈ supportedRates, ∀ q ∈ supportedRates, roundDiv (hz r * hz r) (hz q) ≠ 1 := by decide +kernel
  exact this r h q h'

theorem silence_one_second {target : RateArg} (hr : target.rate ∈ supportedRates) {nch : Nat} :
    (∀ s, silence (α := α) target (10 ^ 12) nch = .ok s → s.length = hz target.rate) ∧
    (target.isAudio = true → ∃ s, silence (α := α) target (10 ^ 12) nch = .ok s) := by
  have hdiv : (10 ^ 12 : Int).tdiv target.rate.frequency = target.rate.samplesPerSecond := by
    rw [Int.tdiv_eq_ediv_of_nonneg (by norm_num)]; rfl
  have hpos : ¬ target.rate.samplesPerSecond < 0 := by
    have := (supported_pos hr).1
    unfold hz at this
    omega
  have h1 := (supported_pos hr).2
  unfold silence
  simp only [hdiv, if_neg hpos]
  have hz' : target.rate.samplesPerSecond.toNat = hz target.rate := rfl
  rw [hz']
  unfold squeezed
  rw [if_neg h1]
  constructor
  · intro s h
    have := ((Audio.C34_new _ target).1 s).mp h
    obtain ⟨rfl, -, -⟩ := this
    unfold Audio.length
    split_ifs <;> simp
  · intro ha
    unfold Audio.new
    split_ifs <;> simp

/-- The first chunk of a stream at a rate other than the target's. -/
theorem prepare_spec (lib : Lib σ α) {target : RateArg} (hr : target.rate ∈ supportedRates) {a : Audio α} {nch : Nat}
    (hn : 1 ≤ nch) (hch : a.channels = nch) (hon : Honest lib nch) (hd : hz target.rate ≠ hz a.rate)
    {mode : Mode σ} {reqs : List (Request α)} (h : prepare lib target a = .ok (mode, reqs)) :
    reqs = [warmUp (hz target.rate) (hz a.rate) nch] ∧
    mode = .resample ⟨hz target.rate, hz a.rate, nch,
      (lib.process (lib.new nch) (warmUp (hz target.rate) (hz a.rate) nch)).1⟩ ∧
    lib.validRatio (hz target.rate) (hz a.rate) = true ∧ 0 < hz a.rate := by
  unfold prepare Resample.new at h
  simp only [] at h
  change (match (if hz a.rate = 0 then _ else _ : Except PyErr (Resample σ)) with | .error e => _ | .ok rs => _) = _ at h
  split_ifs at h with h0 hv
  · simp only [] at h
    split at h
    · simp at h
    · rename_i s hs
      rw [hch] at hs
      have hlen := (silence_one_second hr).1 s hs
      split at h
      · simp at h
      · rename_i rs' out req hcall
        simp only [hlen, hch] at hcall
        obtain ⟨e1, e2, -, -⟩ := call_spec lib _ (by exact hn) (by exact hon) _ _ _ hcall
        simp only [Except.ok.injEq, Prod.mk.injEq] at h
        have e3 : req = warmUp (hz target.rate) (hz a.rate) nch := by
          rw [e1]
          unfold warmUp Resample.outSize hz
          simp
        refine ⟨by rw [← h.2, e3], ?_, hv, Nat.pos_of_ne_zero h0⟩
        rw [← h.1, e2, e3]
        rfl
  · rename_i hne
    exact absurd hd hne

theorem run_spec (lib : Lib σ α) {target : RateArg} (hr : target.rate ∈ supportedRates) {c : Chunk α} {fin : Bool}
    {rest : List (Chunk α × Bool)} {nch : Nat} (hn : 1 ≤ nch) (hch : c.audio.channels = nch) (hon : Honest lib nch)
    (hd : hz target.rate ≠ hz c.audio.rate) {outs : List (Audio α)} {reqs : List (Request α)}
    (h : run lib target ((c, fin) :: rest) = .ok (outs, reqs)) :
    reqs = warmUp (hz target.rate) (hz c.audio.rate) nch ::
      ((c, fin) :: rest).map (fun p => requestFor nch (hz target.rate) (hz c.audio.rate) p.1 p.2) ∧
    List.Forall₂ (fun (p : (Chunk α × Bool) × List (List α)) a =>
        OutputFor target nch (hz target.rate) (hz c.audio.rate) p.1.1 p.2 a)
      (((c, fin) :: rest).zip ((answers lib (lib.new nch) reqs).drop 1)) outs ∧
    outs.length = rest.length + 1 ∧ 0 < hz c.audio.rate := by
  unfold run at h
  simp only [] at h
  split at h
  · simp at h
  · rename_i mode reqs1 hp
    obtain ⟨p1, p2, p3, p4⟩ := prepare_spec lib hr hn hch hon hd hp
    split at h
    · simp at h
    · rename_i as reqs' hrun
      simp only [Except.ok.injEq, Prod.mk.injEq] at h
      obtain ⟨rfl, rfl⟩ := h
      subst p2
      obtain ⟨i1, i2, i3⟩ := runFrom_resample lib target _ _ hn hon hrun
      refine ⟨by rw [p1, i1]; rfl, ?_, by rw [i3]; rfl, p4⟩
      rw [p1]
      exact i2

/-! ## C116: what comes out -/

/-- **C116**: every chunk of audio comes out as a chunk at the requested rate, with the channels of the input (those of its first chunk)
and a number of samples nearest to the input chunk's multiplied by the ratio of the two rates (the even one of two equally near).
For every library that keeps to its contract and every stream. -/
theorem C116_output (lib : Lib σ α) {target : RateArg} (hr : target.rate ∈ supportedRates) {c : Chunk α} {fin : Bool}
    {rest : List (Chunk α × Bool)} {nch : Nat} (hn : 1 ≤ nch) (hch : c.audio.channels = nch) (hon : Honest lib nch)
    (hd : hz target.rate ≠ hz c.audio.rate) {outs : List (Audio α)} {reqs : List (Request α)}
    (h : run lib target ((c, fin) :: rest) = .ok (outs, reqs)) :
    List.Forall₂ (fun (p : Chunk α × Bool) a => a.rate = target.rate ∧ Shaped a nch ∧
      Nearest a.length (p.1.audio.length * hz target.rate) (hz c.audio.rate)) ((c, fin) :: rest) outs := by
  obtain ⟨-, h2, h3, h4⟩ := run_spec lib hr hn hch hon hd h
  rw [List.forall₂_iff_get] at h2 ⊢
  obtain ⟨hl, h2⟩ := h2
  refine ⟨by simp [h3], fun i hi hj => ?_⟩
  have hi' : i < ((((c, fin) :: rest).zip ((answers lib (lib.new nch) reqs).drop 1))).length := by rw [hl]; exact hj
  have := h2 i hi' hj
  simp only [List.get_eq_getElem, List.getElem_zip] at this ⊢
  obtain ⟨e1, e2, e3, e4, e5⟩ := this
  exact ⟨e1, e2, by rw [e3]; exact roundDiv_nearest _ _ h4⟩

/-- **C116, it works**: with a library that never fails and accepts the ratio, any stream of audio at known rates goes through, provided
no chunk comes to exactly one sample. -/
theorem C116_succeeds (lib : Lib σ α) {target : RateArg} (hr : target.rate ∈ supportedRates) (ha : target.isAudio = true)
    {c : Chunk α} {fin : Bool} {rest : List (Chunk α × Bool)} {nch : Nat} (hn : 1 ≤ nch) (hch : c.audio.channels = nch)
    (hon : Honest lib nch) (hne : NoError lib) (hs : c.audio.rate ∈ supportedRates)
    (hv : lib.validRatio (hz target.rate) (hz c.audio.rate) = true) (hd : hz target.rate ≠ hz c.audio.rate)
    (hone : ∀ p ∈ (c, fin) :: rest, ¬ Nearest 1 (p.1.audio.length * hz target.rate) (hz c.audio.rate)) :
    ∃ r, run lib target ((c, fin) :: rest) = .ok r := by
  have hpos := (supported_pos hs).1
  have hprep : ∃ s, prepare lib target c.audio = .ok (.resample (⟨hz target.rate, hz c.audio.rate, nch, s⟩ : Resample σ),
      [warmUp (hz target.rate) (hz c.audio.rate) nch]) := by
    have : ∃ r, prepare lib target c.audio = .ok r := by
      unfold prepare Resample.new
      simp only []
      have hv' : lib.validRatio target.rate.samplesPerSecond.toNat c.audio.rate.samplesPerSecond.toNat = true := hv
      have hd' : target.rate.samplesPerSecond.toNat ≠ c.audio.rate.samplesPerSecond.toNat := hd
      have h0 : c.audio.rate.samplesPerSecond.toNat ≠ 0 := Nat.ne_of_gt hpos
      simp only [if_neg h0, hv', if_true]
      rw [if_pos hd']
      obtain ⟨s, hsil⟩ := (silence_one_second (α := α) (nch := nch) hr).2 ha
      have hlen := (silence_one_second hr).1 s hsil
      simp only [hch, hsil, hlen]
      have hcall := call_ok lib (⟨hz target.rate, hz c.audio.rate, nch, lib.new nch⟩ : Resample σ) hne
        (List.replicate (hz target.rate * nch) (0 : α)) (hz target.rate) false (supported_square hr hs)
      obtain ⟨r, hcall⟩ := hcall
      have hcall' : Resample.call lib (⟨target.rate.samplesPerSecond.toNat, c.audio.rate.samplesPerSecond.toNat, nch, lib.new nch⟩
        : Resample σ) (List.replicate (hz target.rate * nch) (0 : α)) (hz target.rate) false = .ok r := hcall
      rw [hcall']
      exact ⟨_, rfl⟩
    obtain ⟨⟨mode, reqs⟩, hp⟩ := this
    obtain ⟨p1, p2, -, -⟩ := prepare_spec lib hr hn hch hon hd hp
    exact ⟨_, by rw [hp, p1, p2]⟩
  obtain ⟨s, hprep⟩ := hprep
  have hfrom : ∀ (stream : List (Chunk α × Bool)) (s : σ),
      (∀ p ∈ stream, ¬ Nearest 1 (p.1.audio.length * hz target.rate) (hz c.audio.rate)) →
      ∃ r, runFrom lib target (.resample ⟨hz target.rate, hz c.audio.rate, nch, s⟩) stream = .ok r := by
    intro stream
    induction stream with
    | nil => intro s _; exact ⟨_, rfl⟩
    | cons p rest ih =>
      intro s hp
      obtain ⟨c', fin'⟩ := p
      have hm : (⟨hz target.rate, hz c.audio.rate, nch, s⟩ : Resample σ).outSize c'.audio.length ≠ 1 := by
        intro he
        apply hp (c', fin') (by simp)
        have := roundDiv_nearest (c'.audio.length * hz target.rate) (hz c.audio.rate) hpos
        unfold Resample.outSize at he
        simp only [] at he
        rwa [he] at this
      obtain ⟨⟨rs', out, req⟩, hcall⟩ := call_ok lib ⟨hz target.rate, hz c.audio.rate, nch, s⟩ hne c'.memory c'.audio.length fin' hm
      obtain ⟨e1, e2, e3, e4⟩ := call_spec lib _ (by exact hn) (by exact hon) _ _ _ hcall
      have hnew : ∃ b, Audio.new out target = .ok b := by
        rw [e4]
        unfold shaped Audio.new
        rw [if_neg hm]
        split_ifs <;> simp [ha]
      obtain ⟨b, hb⟩ := hnew
      have happ : apply lib target (.resample ⟨hz target.rate, hz c.audio.rate, nch, s⟩) c' fin' = .ok (.resample rs', b, [req]) := by
        unfold apply
        simp only [hcall, hb]
      obtain ⟨r, hr'⟩ := ih (lib.process s req).1 (fun p hpm => hp p (by simp [hpm]))
      unfold runFrom
      simp only [happ]
      rw [e2]
      simp only [hr']
      exact ⟨_, rfl⟩
  obtain ⟨r, hr'⟩ := hfrom ((c, fin) :: rest) s hone
  unfold run
  simp only [hprep, hr']
  exact ⟨_, rfl⟩

/-! ## C117: equal rates -/

/-- **C116, refused ratios**: a ratio of rates that the library does not accept is a ValueError before anything is processed, also when the rates are the same. -/
theorem C116_refused (lib : Lib σ α) (target : RateArg) (c : Chunk α) (fin : Bool) (rest : List (Chunk α × Bool)) (hpos : 0 < hz c.audio.rate)
    (hv : lib.validRatio (hz target.rate) (hz c.audio.rate) = false) : run lib target ((c, fin) :: rest) = .error (.py .valueError) := by
  have hprep : prepare lib target c.audio = .error (.py .valueError) := by
    unfold prepare Resample.new
    simp only []
    have hv' : lib.validRatio target.rate.samplesPerSecond.toNat c.audio.rate.samplesPerSecond.toNat = false := hv
    have h0 : c.audio.rate.samplesPerSecond.toNat ≠ 0 := Nat.ne_of_gt hpos
    simp only [if_neg h0, hv', Bool.false_eq_true, if_false]
  unfold run
  simp only [hprep]

/-- **C117**: a stream already at the requested rate passes through unchanged, whatever follows the first chunk, and the library is
given nothing. -/
theorem C117_same_rate (lib : Lib σ α) (target : RateArg) (c : Chunk α) (fin : Bool) (rest : List (Chunk α × Bool))
    (hd : hz target.rate = hz c.audio.rate) (hpos : 0 < hz c.audio.rate)
    (hv : lib.validRatio (hz target.rate) (hz c.audio.rate) = true) :
    run lib target ((c, fin) :: rest) = .ok (((c, fin) :: rest).map (fun p => p.1.audio), []) := by
  have hprep : prepare lib target c.audio = .ok (.noop, []) := by
    unfold prepare Resample.new
    simp only []
    have hv' : lib.validRatio target.rate.samplesPerSecond.toNat c.audio.rate.samplesPerSecond.toNat = true := hv
    have hd' : target.rate.samplesPerSecond.toNat = c.audio.rate.samplesPerSecond.toNat := hd
    have h0 : c.audio.rate.samplesPerSecond.toNat ≠ 0 := Nat.ne_of_gt hpos
    simp only [if_neg h0, hv', if_true]
    rw [if_neg (by simp [hd'])]
  have hfrom : ∀ stream : List (Chunk α × Bool),
      runFrom lib target .noop stream = .ok (stream.map (fun p => p.1.audio), []) := by
    intro stream
    induction stream with
    | nil => rfl
    | cons p rest ih =>
      obtain ⟨c', fin'⟩ := p
      unfold runFrom apply
      simp only [ih]
      simp
  unfold run
  simp only [hprep, hfrom]
  rfl

/-! ## C118: what the library is given -/

/-- **C118**: the library is given one second of silence at the requested rate and after that the samples of each chunk, in order, nothing
left out and nothing twice, always with the same ratio; the end of the input is announced exactly with the chunks that are
processed last.  So apart from the frame counts what it reads does not depend on how the stream was cut into chunks. -/
theorem C118_requests (lib : Lib σ α) {target : RateArg} (hr : target.rate ∈ supportedRates) {c : Chunk α} {fin : Bool}
    {rest : List (Chunk α × Bool)} {nch : Nat} (hn : 1 ≤ nch) (hon : Honest lib nch)
    (hd : hz target.rate ≠ hz c.audio.rate) {outs : List (Audio α)} {reqs : List (Request α)}
    (hchunks : ∀ p ∈ (c, fin) :: rest, Shaped p.1.audio nch ∧ Contiguous p.1)
    (h : run lib target ((c, fin) :: rest) = .ok (outs, reqs)) :
    (reqs.map (fun r => r.input)).flatten =
      List.replicate (hz target.rate * nch) 0 ++ (((c, fin) :: rest).map fun p => (frames p.1.audio).flatten).flatten ∧
    reqs.map (fun r => r.inputFrames) = hz target.rate :: ((c, fin) :: rest).map (fun p => p.1.audio.length) ∧
    reqs.map (fun r => r.endOfInput) = false :: ((c, fin) :: rest).map (fun p => p.2) ∧
    ∀ r ∈ reqs, r.newRate = hz target.rate ∧ r.origRate = hz c.audio.rate ∧ r.input.length = r.inputFrames * nch := by
  have hflat : ∀ p ∈ (c, fin) :: rest,
      p.1.memory.take (p.1.audio.length * nch) = (frames p.1.audio).flatten ∧
        ((frames p.1.audio).flatten).length = p.1.audio.length * nch := by
    intro p hp
    obtain ⟨hs, hc⟩ := hchunks p hp
    rw [hc]
    have hl : ((frames p.1.audio).flatten).length = p.1.audio.length * nch := by
      rcases hs with ⟨rfl, xs, hx⟩ | ⟨rows, hx, hrows⟩
      · simp only [frames, hx, Audio.length]
        rw [flatten_length (c := 1) (by intro f hf; simp at hf; obtain ⟨x, -, rfl⟩ := hf; rfl)]
        simp
      · simp only [frames, hx, Audio.length]
        exact flatten_length hrows
    exact ⟨by rw [← hl, List.take_length], hl⟩
  have hch : c.audio.channels = nch := by
    have h0 := (hchunks (c, fin) (by simp)).1
    simp only [] at h0
    rcases h0 with ⟨rfl, xs, hx⟩ | ⟨rows, hx, hrows⟩ <;> simp [Audio.channels, hx]
  obtain ⟨h1, -, -, -⟩ := run_spec lib hr hn hch hon hd h
  subst h1
  refine ⟨?_, ?_, ?_, ?_⟩
  · rw [List.map_cons, List.flatten_cons, List.map_map]
    congr 1
    congr 1
    apply List.map_congr_left
    intro p hp
    exact (hflat p hp).1
  · rw [List.map_cons, List.map_map]; rfl
  · rw [List.map_cons, List.map_map]; rfl
  · intro r hrm
    rcases List.mem_cons.mp hrm with rfl | hrm
    · simp [warmUp]
    · obtain ⟨p, hp, rfl⟩ := List.mem_map.mp hrm
      refine ⟨rfl, rfl, ?_⟩
      show (p.1.memory.take (p.1.audio.length * nch)).length = p.1.audio.length * nch
      rw [(hflat p hp).1, (hflat p hp).2]

/-! ## C119: the total length -/

theorem total_length {new orig : Nat} {stream : List (Chunk α × Bool)} {outs : List (Audio α)}
    (h : List.Forall₂ (fun (p : Chunk α × Bool) (a : Audio α) => Nearest a.length (p.1.audio.length * new) orig) stream outs) :
    2 * ((stream.map fun p => p.1.audio.length).sum * new) ≤ 2 * ((outs.map Audio.length).sum * orig) + stream.length * orig ∧
    2 * ((outs.map Audio.length).sum * orig) ≤ 2 * ((stream.map fun p => p.1.audio.length).sum * new) + stream.length * orig := by
  induction h with
  | nil => simp
  | @cons p a ps as hpa _ ih =>
    obtain ⟨h1, h2, -⟩ := hpa
    simp only [List.map_cons, List.sum_cons, List.length_cons]
    constructor <;> nlinarith [ih.1, ih.2]

/-- **C119**: the whole result differs from the input's duration at the new rate by at most half a sample per chunk; and by nothing at all
when every chunk is a whole number of samples long at the new rate. -/
theorem C119_total (lib : Lib σ α) {target : RateArg} (hr : target.rate ∈ supportedRates) {c : Chunk α} {fin : Bool}
    {rest : List (Chunk α × Bool)} {nch : Nat} (hn : 1 ≤ nch) (hch : c.audio.channels = nch) (hon : Honest lib nch)
    (hd : hz target.rate ≠ hz c.audio.rate) {outs : List (Audio α)} {reqs : List (Request α)}
    (h : run lib target ((c, fin) :: rest) = .ok (outs, reqs)) :
    |2 * ((((c, fin) :: rest).map fun p => p.1.audio.length).sum * (hz target.rate) : Int) -
      2 * ((outs.map Audio.length).sum * (hz c.audio.rate) : Int)| ≤ (rest.length + 1) * hz c.audio.rate ∧
    ((∀ p ∈ (c, fin) :: rest, hz c.audio.rate ∣ p.1.audio.length * hz target.rate) →
      (outs.map Audio.length).sum * hz c.audio.rate =
        (((c, fin) :: rest).map fun p => p.1.audio.length).sum * hz target.rate) := by
  have hout := C116_output lib hr hn hch hon hd h
  obtain ⟨-, -, -, hpos⟩ := run_spec lib hr hn hch hon hd h
  have hnear := hout.imp (fun _ _ hh => hh.2.2)
  obtain ⟨t1, t2⟩ := total_length hnear
  constructor
  · rw [abs_le]
    simp only [List.length_cons] at t1 t2
    constructor
    · have : ((2 * ((outs.map Audio.length).sum * hz c.audio.rate) : Nat) : Int) ≤
        ((2 * (((((c, fin) :: rest).map fun p => p.1.audio.length).sum) * hz target.rate) + (rest.length + 1) * hz c.audio.rate : Nat) : Int) := by
        exact_mod_cast t2
      push_cast at this
      push_cast
      linarith
    · have : ((2 * (((((c, fin) :: rest).map fun p => p.1.audio.length).sum) * hz target.rate) : Nat) : Int) ≤
        ((2 * ((outs.map Audio.length).sum * hz c.audio.rate) + (rest.length + 1) * hz c.audio.rate : Nat) : Int) := by
        exact_mod_cast t1
      push_cast at this
      push_cast
      linarith
  · intro hdvd
    clear t1 t2 hout h
    generalize hz c.audio.rate = orig at *
    generalize ((c, fin) :: rest) = stream at *
    induction hnear with
    | nil => simp
    | @cons p a ps as hpa _ ih =>
      simp only [List.map_cons, List.sum_cons, Nat.add_mul]
      rw [ih (fun q hq => hdvd q (by simp [hq]))]
      congr 1
      obtain ⟨k, hk⟩ := hdvd p (by simp)
      have : a.length = k := by
        apply nearest_unique hpos hpa
        rw [hk]
        unfold Nearest
        have : orig * k = k * orig := Nat.mul_comm _ _
        rw [this]
        generalize k * orig = z
        omega
      rw [this, hk, Nat.mul_comm]

/-! ## C120: the samples -/

/-- **C120**: the samples of each chunk that comes out are the frames the library answered with for that chunk (after a first answer, to
the silence, that is dropped), followed by silence if it answered with fewer than there is room for. -/
theorem C120_samples (lib : Lib σ α) {target : RateArg} (hr : target.rate ∈ supportedRates) {c : Chunk α} {fin : Bool}
    {rest : List (Chunk α × Bool)} {nch : Nat} (hn : 1 ≤ nch) (hch : c.audio.channels = nch) (hon : Honest lib nch)
    (hd : hz target.rate ≠ hz c.audio.rate) {outs : List (Audio α)} {reqs : List (Request α)}
    (h : run lib target ((c, fin) :: rest) = .ok (outs, reqs)) :
    List.Forall₂ (fun (gen : List (List α)) (a : Audio α) =>
        gen.length ≤ a.length ∧ frames a = gen ++ List.replicate (a.length - gen.length) (List.replicate nch 0))
      ((answers lib (lib.new nch) reqs).drop 1) outs := by
  obtain ⟨h1, h2, h3, h4⟩ := run_spec lib hr hn hch hon hd h
  have hal : ∀ (reqs : List (Request α)) (s : σ), (answers lib s reqs).length = reqs.length := by
    intro reqs
    induction reqs with
    | nil => intro s; rfl
    | cons r rs ih => intro s; simp [answers, ih]
  have hle : ∀ (reqs : List (Request α)) (s : σ) (i : Nat) (hi : i < (answers lib s reqs).length) (hj : i < reqs.length),
      ((answers lib s reqs)[i]).length ≤ (reqs[i]).outputFrames := by
    intro reqs
    induction reqs with
    | nil => intro s i hi; simp [answers] at hi
    | cons r rs ih =>
      intro s i hi hj
      cases i with
      | zero => exact (hon s r).1
      | succ i => simp only [answers, List.getElem_cons_succ]; exact ih _ i _ _
  rw [List.forall₂_iff_get] at h2 ⊢
  obtain ⟨hl, h2⟩ := h2
  have hlr : reqs.length = rest.length + 2 := by rw [h1]; simp
  refine ⟨by rw [List.length_drop, hal, hlr, h3]; omega, fun i hi hj => ?_⟩
  have hi' : i < ((((c, fin) :: rest).zip ((answers lib (lib.new nch) reqs).drop 1))).length := by rw [hl]; exact hj
  have := h2 i hi' hj
  simp only [List.get_eq_getElem, List.getElem_zip] at this ⊢
  obtain ⟨e1, e2, e3, e4, e5⟩ := this
  refine ⟨?_, e5⟩
  rw [e3, List.getElem_drop]
  have hk : 1 + i < reqs.length := by omega
  refine (hle reqs (lib.new nch) (1 + i) _ hk).trans ?_
  have : reqs[1 + i].outputFrames = roundDiv ((((c, fin) :: rest)[i]'(by simp; omega)).1.audio.length * hz target.rate) (hz c.audio.rate) := by
    subst h1
    have he : 1 + i = i + 1 := Nat.add_comm 1 i
    simp only [he, List.getElem_cons_succ, List.getElem_map]
    rfl
  rw [this]

/-! ## false expectations -/

/-- **C121**: the length of the result depends on how the stream was cut: at half the rate, two chunks of three samples come to four samples, one
chunk of six to three.  For every library. -/
theorem C121_chunking_refuted (lib : Lib σ ℚ) (hon : Honest lib 1) (target : RateArg) (r : SampleRate)
    (ht : target.rate = ⟨45351473, 45351473⟩) (hr : r = ⟨22675736, 22675736⟩) (m : List ℚ)
    {o1 o2 : List (Audio ℚ)} {q1 q2 : List (Request ℚ)}
    (h1 : run lib target [(⟨⟨r, .vec [1, 2, 3]⟩, m⟩, false), (⟨⟨r, .vec [4, 5, 6]⟩, m⟩, true)] = .ok (o1, q1))
    (h2 : run lib target [(⟨⟨r, .vec [1, 2, 3, 4, 5, 6]⟩, m⟩, true)] = .ok (o2, q2)) :
    (o1.map Audio.length).sum = 4 ∧ (o2.map Audio.length).sum = 3 := by
  have hsup : target.rate ∈ supportedRates := by rw [ht]; decide
  have hz1 : hz target.rate = 22050 := by rw [ht]; decide
  have hz2 : hz r = 44100 := by rw [hr]; decide
  have hd : hz target.rate ≠ hz r := by rw [hz1, hz2]; decide
  have key : ∀ {k n l : Nat}, Nearest k (n * 22050) 44100 → Nearest l (n * 22050) 44100 → k = l :=
    fun a b => nearest_unique (by decide) a b
  have r1 := C116_output lib hsup (nch := 1) (by decide) rfl hon hd h1
  have r2 := C116_output lib hsup (nch := 1) (by decide) rfl hon hd h2
  rw [hz1, hz2] at r1 r2
  have n3 : Nearest 2 (3 * 22050) 44100 := by unfold Nearest; decide
  have n6 : Nearest 3 (6 * 22050) 44100 := by unfold Nearest; decide
  constructor
  · cases r1 with
    | cons a1 a2 => cases a2 with
      | cons b1 b2 => cases b2 with
        | nil =>
          have e1 := key a1.2.2 n3
          have e2 := key b1.2.2 n3
          simp [e1, e2]
  · cases r2 with
    | cons a1 a2 => cases a2 with
      | nil =>
        have e1 := key a1.2.2 n6
        simp [e1]

/-- **C122**: a chunk that comes to exactly one sample cannot be processed: one channel is a TypeError, and with more channels the library is told
it may write beyond the end of the buffer. -/
theorem C122_one_sample_refuted (lib : Lib σ α) (rs : Resample σ) (mem : List α) (n : Nat) (eoi : Bool)
    (h : Nearest 1 (n * rs.newRate) rs.origRate) (ho : 0 < rs.origRate) :
    (rs.nchannels = 1 → rs.call lib mem n eoi = .error (.py .typeError)) ∧
    (2 ≤ rs.nchannels → rs.call lib mem n eoi = .error .memory) := by
  have hm : rs.outSize n = 1 := nearest_unique ho (roundDiv_nearest _ _ ho) h
  unfold Resample.call
  simp only [hm]
  constructor
  · intro hc
    simp [hc, squeezed, rawLen]
  · intro hc
    have hc1 : rs.nchannels ≠ 1 := by omega
    simp only [squeezed, if_true, if_neg hc1, rawLen, List.length_replicate]
    rw [if_pos (Nat.mul_lt_mul_of_pos_right (by omega) (by omega))]

/-- **C122, the exact extent**: outside of that case the library is told of exactly the room there is, so whatever an honest library writes
stays within the buffer. -/
theorem C122_room (lib : Lib σ α) (rs : Resample σ) (hc : 1 ≤ rs.nchannels) (hon : Honest lib rs.nchannels) (mem : List α)
    (n : Nat) (eoi : Bool) {rs' : Resample σ} {out : Raw α} {req : Request α}
    (h : rs.call lib mem n eoi = .ok (rs', out, req)) (ho : 0 < rs.origRate) :
    Nearest req.outputFrames (n * rs.newRate) rs.origRate ∧ req.outputFrames ≠ 1 ∧
    (lib.process rs.state req).2.1.flatten.length ≤ req.outputFrames * rs.nchannels := by
  obtain ⟨h1, -, h3, -⟩ := call_spec lib rs hc hon _ _ _ h
  have hh := hon rs.state req
  rw [flatten_length hh.2]
  refine ⟨?_, ?_, Nat.mul_le_mul_right _ hh.1⟩
  · rw [h1]; exact roundDiv_nearest _ _ ho
  · rw [h1]; exact h3

/-- The memory of the array made by `AudioSamples.stereo` (a transposed matrix): all of the left channel, then all of the right. -/
def transposedMemory (xs : List α) : List α := xs ++ xs

/-- **C123**: the two-channel array that `stereo` makes from one channel is stored channel after channel, but the library reads it frame after
frame: its first frame is the first two samples of the left channel instead of the first sample of both. -/
theorem C123_layout_refuted (lib : Lib σ ℚ) (hon : Honest lib 2) (target : RateArg) (hr : target.rate ∈ supportedRates)
    (a : Audio ℚ) (hs : a.rate ∈ supportedRates) (xs : List ℚ) (x y : ℚ) (hx : a.data = .vec (x :: y :: xs)) (hxy : x ≠ y)
    (hd : hz target.rate ≠ hz a.rate) (fin : Bool) :
    ∃ st, a.stereo = .ok st ∧ frames st = (x :: y :: xs).map (fun v => [v, v]) ∧
      ∀ outs reqs, run lib target [(⟨st, transposedMemory (x :: y :: xs)⟩, fin)] = .ok (outs, reqs) →
        ∃ r, reqs[1]? = some r ∧ r.input.take 2 = [x, y] ∧ r.input.take 2 ≠ ((frames st).flatten).take 2 := by
  have hst : a.stereo = .ok ⟨a.rate, .mat 2 ((x :: y :: xs).map fun v => [v, v])⟩ := by
    unfold Audio.stereo
    have hch : a.channels ≠ 2 := by simp [Audio.channels, hx]
    rw [if_neg hch, Audio.rewrap_supported hs]
    simp [hx, Audio.stackT, Audio.new]
  refine ⟨_, hst, rfl, ?_⟩
  intro outs reqs h
  obtain ⟨h1, -, -, -⟩ := run_spec lib hr (nch := 2) (by decide) rfl hon hd h
  refine ⟨_, by rw [h1]; rfl, ?_, ?_⟩
  · have hi : ∀ k, List.take 2 (List.take ((k + 2) * 2) (x :: y :: xs ++ x :: y :: xs)) = [x, y] := by
      intro k
      rw [List.take_take, Nat.min_eq_left (by omega)]
      rfl
    have := hi xs.length
    simpa [requestFor, transposedMemory, Audio.length] using this
  · have hi : ∀ k, List.take 2 (List.take ((k + 2) * 2) (x :: y :: xs ++ x :: y :: xs)) ≠ [x, x] := by
      intro k
      rw [List.take_take, Nat.min_eq_left (by omega)]
      simp [hxy.symm]
    have := hi xs.length
    simpa [requestFor, transposedMemory, Audio.length, frames] using this

/-- **C124**: the rate is looked at on the first chunk only.  If that chunk is at the requested rate, a later one at another rate comes out as
it is, at its own rate. -/
theorem C124_later_rate_refuted (lib : Lib σ α) (target : RateArg) (c d : Chunk α) (f g : Bool)
    (hd : hz target.rate = hz c.audio.rate) (hpos : 0 < hz c.audio.rate)
    (hv : lib.validRatio (hz target.rate) (hz c.audio.rate) = true) (hdiff : d.audio.rate ≠ target.rate) :
    ∃ outs, run lib target [(c, f), (d, g)] = .ok (outs, []) ∧ outs[1]? = some d.audio ∧ d.audio.rate ≠ target.rate :=
  ⟨_, C117_same_rate lib target c f [(d, g)] hd hpos hv, rfl, hdiff⟩

/-- **C124**, the other case: a later chunk is resampled by the ratio of the first one's rate, so its duration changes unless it has the
same rate. -/
theorem C124_later_ratio_refuted (lib : Lib σ α) {target : RateArg} (hr : target.rate ∈ supportedRates) {c d : Chunk α} {f g : Bool}
    {nch : Nat} (hn : 1 ≤ nch) (hch : c.audio.channels = nch) (hon : Honest lib nch)
    (hd : hz target.rate ≠ hz c.audio.rate) {outs : List (Audio α)} {reqs : List (Request α)}
    (hlen : d.audio.length = hz d.audio.rate)
    (h : run lib target [(c, f), (d, g)] = .ok (outs, reqs)) :
    ∃ a, outs[1]? = some a ∧ a.rate = target.rate ∧ Nearest a.length (hz d.audio.rate * hz target.rate) (hz c.audio.rate) := by
  have := C116_output lib hr hn hch hon hd h
  cases this with
  | cons a1 a2 => cases a2 with
    | cons b1 b2 => cases b2 with
      | nil =>
        refine ⟨_, rfl, b1.1, ?_⟩
        have := b1.2.2
        rwa [hlen] at this

/-! ## the hypotheses are met -/

/-- A library that repeats or drops frames: frame `i` of the answer is the input's frame `i * orig / new`, silence beyond its end.  It counts
its calls. -/
def nearestLib (nch : Nat) : Lib Nat ℚ where
  validRatio new orig := decide (orig ≤ 256 * new ∧ new ≤ 256 * orig)
  new _ := 0
  process s req := (s + 1,
    (List.range (min req.outputFrames (req.inputFrames * 256))).map (fun i => (List.range nch).map fun ch =>
      req.input.getD (i * req.origRate / req.newRate * nch + ch) 0), 0)

theorem nearestLib_honest (nch : Nat) : Honest (nearestLib nch) nch ∧ NoError (nearestLib nch) := by
  constructor
  · intro s req
    constructor
    · simp only [nearestLib, List.length_map, List.length_range]; exact Nat.min_le_left _ _
    · intro f hf
      simp only [nearestLib, List.mem_map] at hf
      obtain ⟨i, -, rfl⟩ := hf
      simp
  · intro s req; rfl

/-- 22050 Hz and 44100 Hz. -/
def sr22 : SampleRate := ⟨45351473, 45351473⟩
def sr44 : SampleRate := ⟨22675736, 22675736⟩

/-- Two chunks of stereo audio, contiguous in memory. -/
def chunk1 : Chunk ℚ := ⟨⟨sr44, .mat 2 [[1, -1], [2, -2], [3, -3], [4, -4]]⟩, [1, -1, 2, -2, 3, -3, 4, -4]⟩
def chunk2 : Chunk ℚ :=
  ⟨⟨sr44, .mat 2 [[5, -5], [6, -6], [7, -7], [8, -8], [9, -9]]⟩, [5, -5, 6, -6, 7, -7, 8, -8, 9, -9]⟩

/-- C116–C120: a stream from 44100 Hz down to 22050 Hz goes through. -/
theorem demo_run : ∃ outs reqs, run (nearestLib 2) ⟨sr22, true⟩ [(chunk1, false), (chunk2, true)] = .ok (outs, reqs) ∧
    outs.map (fun a => a.length) = [2, 2] ∧ outs.map (fun a => a.rate) = [sr22, sr22] ∧
    reqs.map (fun r => r.endOfInput) = [false, false, true] := by
  obtain ⟨⟨outs, reqs⟩, h⟩ := C116_succeeds (nearestLib 2) (target := ⟨sr22, true⟩) (by decide) rfl
    (c := chunk1) (fin := false) (rest := [(chunk2, true)]) (nch := 2) (by decide) rfl (nearestLib_honest 2).1
    (nearestLib_honest 2).2 (by decide) (by decide +kernel) (by decide)
    (by
      intro p hp
      simp only [List.mem_cons, List.not_mem_nil, or_false] at hp
      rcases hp with rfl | rfl <;> (unfold Nearest; decide))
  have hout := C116_output (nearestLib 2) (target := ⟨sr22, true⟩) (by decide) (nch := 2) (by decide) rfl (nearestLib_honest 2).1
    (by decide) h
  have hreq := C118_requests (nearestLib 2) (target := ⟨sr22, true⟩) (by decide) (nch := 2) (by decide) (nearestLib_honest 2).1
    (by decide)
    (by
      intro p hp
      simp only [List.mem_cons, List.not_mem_nil, or_false] at hp
      rcases hp with rfl | rfl
      · exact ⟨Or.inr ⟨_, rfl, by decide +kernel⟩, by unfold Contiguous; decide +kernel⟩
      · exact ⟨Or.inr ⟨_, rfl, by decide +kernel⟩, by unfold Contiguous; decide +kernel⟩) h
  refine ⟨outs, reqs, h, ?_, ?_, hreq.2.2.1⟩
  · cases hout with
    | cons a1 a2 => cases a2 with
      | cons b1 b2 => cases b2 with
        | nil =>
          have e1 := nearest_unique (by decide) a1.2.2 (l := 2) (by unfold Nearest; decide)
          have e2 := nearest_unique (by decide) b1.2.2 (l := 2) (by unfold Nearest; decide)
          simp [e1, e2]
  · cases hout with
    | cons a1 a2 => cases a2 with
      | cons b1 b2 => cases b2 with
        | nil => simp [a1.1, b1.1]

/-- C117: one at the same rate is left alone. -/
example : run (nearestLib 2) ⟨sr44, true⟩ [(chunk1, false), (chunk2, true)] = .ok ([chunk1.audio, chunk2.audio], []) :=
  C117_same_rate (nearestLib 2) ⟨sr44, true⟩ chunk1 false [(chunk2, true)] (by decide) (by decide) (by decide +kernel)

/-- C121: the streams of that theorem are processed (here with one channel at a time). -/
example : ∃ r, run (nearestLib 1) ⟨sr22, true⟩
    [(⟨⟨sr44, .vec [1, 2, 3]⟩, [1, 2, 3]⟩, false), (⟨⟨sr44, .vec [4, 5, 6]⟩, [1, 2, 3]⟩, true)] = .ok r :=
  C116_succeeds (nearestLib 1) (target := ⟨sr22, true⟩) (by decide) rfl (nch := 1) (by decide) rfl (nearestLib_honest 1).1
    (nearestLib_honest 1).2 (by decide) (by decide +kernel) (by decide)
    (by
      intro p hp
      simp only [List.mem_cons, List.not_mem_nil, or_false] at hp
      rcases hp with rfl | rfl <;> (unfold Nearest; decide))

/-- C122: two samples at half the rate come to one. -/
example : Nearest 1 (2 * 22050) 44100 := by unfold Nearest; decide

/-- The stream above meets what C119 and C120 ask for. -/
example : True := by
  obtain ⟨outs, reqs, h, -⟩ := demo_run
  have := C119_total (nearestLib 2) (target := ⟨sr22, true⟩) (by decide) (c := chunk1) (fin := false) (nch := 2) (by decide) rfl (nearestLib_honest 2).1 (by decide) h
  have := C120_samples (nearestLib 2) (target := ⟨sr22, true⟩) (by decide) (c := chunk1) (fin := false) (nch := 2) (by decide) rfl (nearestLib_honest 2).1 (by decide) h
  trivial

/-- C116: a library that refuses every ratio. -/
example := C116_refused { nearestLib 2 with validRatio := fun _ _ => false } ⟨sr22, true⟩ chunk1 false [(chunk2, true)] (by decide) rfl

end Zounds.Resample
