import Verif.Model.Forward
import Verif.Props.Learn
import Verif.Props.ArrayOps
import Verif.Props.Fit

/-!
# What trained networks and hashes hand on (C274 - C277)
-/

open Zounds.Learn (applyNetwork RowWise)
open Zounds.Arr (DimOps Awu LibDim libOps)

namespace Zounds.Forward

section units
variable {φ : Type} [Field φ] [LinearOrder φ] (X : Freq.NumExt φ)

/-- A dimension for an axis of `n` elements: a time dimension learns the size, a frequency dimension is as long as its scale. -/
inductive Describes : LibDim φ → Nat → LibDim φ → Prop where
  | identity (n : Nat) : Describes .identity n .identity
  | time (f u : Int) (s : Option Nat) (n : Nat) : Describes (.time f u s) n (.time f u (some n))
  | freq (s : Freq.Scale φ) : Describes (.freq s) s.len (.freq s)

theorem describes_iff (d : LibDim φ) (n : Nat) (d' : LibDim φ) : Describes d n d' ↔ (libOps X).install d n = .ok d' := by
  obtain ⟨h1, h2, h3⟩ := Arr.C36_lib_install X n
  cases d with
  | identity =>
    rw [h3]
    exact ⟨fun h => by cases h; rfl, fun h => by cases h; exact .identity n⟩
  | time f u s =>
    rw [h1]
    exact ⟨fun h => by cases h; rfl, fun h => by cases h; exact .time f u s n⟩
  | freq s =>
    rw [h2]
    constructor
    · intro h; cases h; exact if_pos rfl
    · intro h
      by_cases hn : n = s.len
      · rw [if_pos hn] at h; cases h; subst hn; exact .freq s
      · rw [if_neg hn] at h; cases h

theorem install_error (d : LibDim φ) (n : Nat) (e : PyErr) (h : (libOps X).install d n = .error e) : e = .valueError := by
  obtain ⟨h1, h2, h3⟩ := Arr.C36_lib_install X n
  cases d with
  | identity => rw [h3] at h; cases h
  | time f u s => rw [h1] at h; cases h
  | freq s =>
    rw [h2] at h
    split at h
    · cases h
    · cases h; rfl

/-- Axis by axis. -/
abbrev DescribesAll (ds : List (LibDim φ)) (shape : List Nat) (ds' : List (LibDim φ)) : Prop :=
  ds.length = shape.length ∧ ds'.length = shape.length ∧
  ∀ k (h1 : k < ds.length) (h2 : k < shape.length) (h3 : k < ds'.length), Describes ds[k] shape[k] ds'[k]

theorem new_iff {α : Type} (shape : List Nat) (get : List Nat → α) (ds : List (LibDim φ)) :
    (∀ ds', DescribesAll ds shape ds' → Awu.new (libOps X) shape get ds = .ok ⟨shape, ds', get⟩) ∧
    ((∀ ds', ¬ DescribesAll ds shape ds') → Awu.new (libOps X) shape get ds = .error .valueError) := by
  have all : ∀ (ds : List (LibDim φ)) (shape : List Nat) (e : PyErr), Arr.installAll (libOps X) ds shape = .error e → e = .valueError := by
    intro ds
    induction ds with
    | nil => intro shape e h; simp [Arr.installAll] at h
    | cons d ds ih =>
      intro shape e h
      cases shape with
      | nil => simp [Arr.installAll] at h
      | cons n shape =>
        simp only [Arr.installAll] at h
        cases h1 : (libOps X).install d n with
        | error e' => rw [h1] at h; cases h; exact install_error X d n e h1
        | ok d' =>
          rw [h1] at h
          cases h2 : Arr.installAll (libOps X) ds shape with
          | error e' => rw [h2] at h; cases h; exact ih shape e h2
          | ok _ => rw [h2] at h; cases h
  constructor
  · rintro ds' ⟨h1, h2, h3⟩
    refine (Arr.C36_new (libOps X) shape get ds ⟨shape, ds', get⟩).mpr ⟨h1.symm, rfl, rfl, ?_, ?_⟩
    · simp only; omega
    · intro k k1 k2 k3
      exact (describes_iff X _ _ _).mp (h3 k k1 k2 k3)
  · intro h
    cases hn : Awu.new (libOps X) shape get ds with
    | ok r =>
      obtain ⟨h1, h2, h3, h4, h5⟩ := (Arr.C36_new (libOps X) shape get ds r).mp hn
      exact absurd ⟨h1.symm, by omega, fun k k1 k2 k3 => (describes_iff X _ _ _).mpr (h5 k k1 k2 k3)⟩ (h r.dims)
    | error e =>
      unfold Awu.new at hn
      split at hn
      · cases hn; rfl
      · split at hn
        · rename_i e' he
          cases hn
          rw [all _ _ _ he]
        · cases hn

theorem describesAll_cons (d : LibDim φ) (ds : List (LibDim φ)) (n : Nat) (shape : List Nat) (out : List (LibDim φ)) :
    DescribesAll (d :: ds) (n :: shape) out ↔ ∃ d' ds', out = d' :: ds' ∧ Describes d n d' ∧ DescribesAll ds shape ds' := by
  constructor
  · rintro ⟨h1, h2, h3⟩
    cases out with
    | nil => simp at h2
    | cons d' ds' =>
      refine ⟨d', ds', rfl, h3 0 (by simp) (by simp) (by simp), by simpa using h1, by simpa using h2, ?_⟩
      intro k k1 k2 k3
      have := h3 (k + 1) (by simp; omega) (by simp; omega) (by simp; omega)
      simpa using this
  · rintro ⟨d', ds', rfl, h1, h2, h3, h4⟩
    refine ⟨by simp [h2], by simp [h3], ?_⟩
    intro k k1 k2 k3
    cases k with
    | zero => exact h1
    | succ k => exact h4 k (by simpa using k1) (by simpa using k2) (by simpa using k3)

theorem describesAll_identities (shape : List Nat) (out : List (LibDim φ)) :
    DescribesAll (List.replicate shape.length .identity) shape out ↔ out = List.replicate shape.length .identity := by
  induction shape generalizing out with
  | nil =>
    constructor
    · rintro ⟨-, h, -⟩; simpa using h
    · rintro rfl; exact ⟨rfl, rfl, fun k h => by simp at h⟩
  | cons n shape ih =>
    rw [List.length_cons, List.replicate_succ, describesAll_cons]
    constructor
    · rintro ⟨d', ds', rfl, h1, h2⟩
      cases h1
      rw [(ih ds').mp h2]
    · rintro rfl
      exact ⟨_, _, rfl, .identity n, (ih _).mpr rfl⟩

theorem wrap_of {δ κ α : Type} (ops : DimOps δ κ) (caught : List PyErr) (shape : List Nat) (get : List Nat → α) (dims : List δ) (r : Except PyErr (Awu δ α)) :
    Awu.new ops shape get dims = r → wrap ops caught shape get dims = match r with
      | .ok a => .ok (.units a)
      | .error e => if e ∈ caught then .ok (.plain shape get) else .error e := by
  intro h; subst h; rfl

/-- **C274** (`PyTorchNetwork`): the forward function never raises.  A result of two axes whose first is described by the first dimension of the
data has that dimension and an identity; every other result is a bare array; either way with the network's numbers. -/
theorem C274_network {α : Type} (d : LibDim φ) (ds : List (LibDim φ)) (shape : List Nat) (get : List Nat → α) :
    (∀ n m d', shape = [n, m] → Describes d n d' →
      networkUnits (libOps X) (some (d :: ds)) shape get = .ok (.units ⟨shape, [d', .identity], get⟩)) ∧
    ((¬ ∃ n m d', shape = [n, m] ∧ Describes d n d') → networkUnits (libOps X) (some (d :: ds)) shape get = .ok (.plain shape get)) ∧
    networkUnits (libOps X) none shape get = .ok (.plain shape get) := by
  obtain ⟨g, b⟩ := new_iff X shape get [d, .identity]
  refine ⟨?_, ?_, rfl⟩
  · rintro n m d' rfl hd
    have := g [d', .identity] ((describesAll_cons ..).mpr ⟨d', [.identity], rfl, hd,
      (describesAll_cons ..).mpr ⟨.identity, [], rfl, .identity m, rfl, rfl, fun k h => by simp at h⟩⟩)
    exact (wrap_of _ _ _ _ _ _ (this)).trans rfl
  · intro hne
    have := b (by
      intro ds' h
      match shape, h with
      | [n, m], h =>
        obtain ⟨d', r, rfl, h1, -⟩ := (describesAll_cons ..).mp h
        exact hne ⟨n, m, d', rfl, h1⟩
      | [], h => exact absurd h.1 (by simp)
      | [_], h => exact absurd h.1 (by simp)
      | _ :: _ :: _ :: _, h => have := h.1; simp at this)
    exact (wrap_of _ _ _ _ _ _ (this)).trans rfl

example := (C274_network (⟨fun _ _ _ => [], fun _ _ => [], fun _ _ => []⟩ : Freq.NumExt ℚ) (.time 5 8 none) [.identity] [4, 2] (fun i => i)).1 4 2 _ rfl (.time 5 8 none 4)

/-- **C274** (`PyTorchAutoEncoder`): a result with rows has the first dimension of the data followed by identities; if that dimension (a
frequency dimension of another size) does not describe the rows, the forward function raises ValueError. -/
theorem C274_autoencoder {α : Type} (d : LibDim φ) (ds : List (LibDim φ)) (n : Nat) (rest : List Nat) (get : List Nat → α) :
    (∀ d', Describes d n d' →
      autoUnits (libOps X) (some (d :: ds)) (n :: rest) get = .ok (.units ⟨n :: rest, d' :: List.replicate rest.length .identity, get⟩)) ∧
    ((¬ ∃ d', Describes d n d') → autoUnits (libOps X) (some (d :: ds)) (n :: rest) get = .error .valueError) ∧
    autoUnits (libOps X) none (n :: rest) get = .ok (.plain (n :: rest) get) := by
  obtain ⟨g, b⟩ := new_iff X (n :: rest) get (d :: List.replicate rest.length .identity)
  refine ⟨?_, ?_, rfl⟩
  · intro d' hd
    have := g (d' :: List.replicate rest.length .identity) ((describesAll_cons ..).mpr ⟨_, _, rfl, hd, (describesAll_identities ..).mpr rfl⟩)
    exact (wrap_of _ _ _ _ _ _ (this)).trans rfl
  · intro hne
    have := b (by
      intro ds' h
      obtain ⟨d', r, rfl, h1, -⟩ := (describesAll_cons ..).mp h
      exact hne ⟨d', h1⟩)
    exact (wrap_of _ _ _ _ _ _ (this)).trans rfl

example := (C274_autoencoder (⟨fun _ _ _ => [], fun _ _ => [], fun _ _ => []⟩ : Freq.NumExt ℚ) (.time 5 8 none) [.identity] 4 [2] (fun i => i)).1 _ (.time 5 8 none 4)

/-- **C274** (`PyTorchGan`): the forward function never raises.  A result has units exactly if it has as many axes as the data and all but its last
axis are described by the data's dimensions: those dimensions, and an identity. -/
theorem C274_gan {α : Type} (ds : List (LibDim φ)) (shape : List Nat) (get : List Nat → α) :
    (∀ out, DescribesAll (ds.dropLast ++ [.identity]) shape out →
      ganUnits (libOps X) (some ds) shape get = .ok (.units ⟨shape, out, get⟩)) ∧
    ((¬ ∃ out, DescribesAll (ds.dropLast ++ [.identity]) shape out) → ganUnits (libOps X) (some ds) shape get = .ok (.plain shape get)) ∧
    ganUnits (libOps X) none shape get = .ok (.plain shape get) := by
  obtain ⟨g, b⟩ := new_iff X shape get (ds.dropLast ++ [.identity])
  refine ⟨?_, ?_, rfl⟩
  · intro out h
    exact (wrap_of _ _ _ _ _ _ (g out h)).trans rfl
  · intro h
    exact (wrap_of _ _ _ _ _ _ (b fun out ho => h ⟨out, ho⟩)).trans rfl

example := (C274_gan (⟨fun _ _ _ => [], fun _ _ => [], fun _ _ => []⟩ : Freq.NumExt ℚ) [.time 5 8 none, .freq (.explicit [⟨0, 1⟩])] [4, 2] (fun i => i)).1
  [.time 5 8 (some 4), .identity]
  ((describesAll_cons ..).mpr ⟨_, _, rfl, .time 5 8 none 4, (describesAll_cons ..).mpr ⟨_, [], rfl, .identity 2, rfl, rfl, fun k h => absurd h (by simp)⟩⟩)

/-- **C274** (`SimHash`): codes have the first dimension of the data and an identity. -/
theorem C274_simhash {α : Type} (d : LibDim φ) (ds : List (LibDim φ)) (n bits : Nat) (get : List Nat → α) :
    (∀ d', Describes d n d' →
      simhashUnits (libOps X) (some (d :: ds)) n bits get = .ok (.units ⟨[n, bits], [d', .identity], get⟩)) ∧
    ((¬ ∃ d', Describes d n d') → simhashUnits (libOps X) (some (d :: ds)) n bits get = .error .valueError) ∧
    simhashUnits (libOps X) none n bits get = .ok (.plain [n, bits] get) ∧
    simhashUnits (libOps X) (some []) n bits get = .error .indexError := by
  obtain ⟨g, b⟩ := new_iff X [n, bits] get [d, .identity]
  refine ⟨?_, ?_, rfl, rfl⟩
  · intro d' hd
    have := g [d', .identity] ((describesAll_cons ..).mpr ⟨d', [.identity], rfl, hd,
      (describesAll_cons ..).mpr ⟨.identity, [], rfl, .identity bits, rfl, rfl, fun k h => by simp at h⟩⟩)
    exact (wrap_of _ _ _ _ _ _ (this)).trans rfl
  · intro hne
    have := b (by
      intro ds' h
      obtain ⟨d', r, rfl, h1, -⟩ := (describesAll_cons ..).mp h
      exact hne ⟨d', h1⟩)
    exact (wrap_of _ _ _ _ _ _ (this)).trans rfl

example := (C274_simhash (⟨fun _ _ _ => [], fun _ _ => [], fun _ _ => []⟩ : Freq.NumExt ℚ) (.time 5 8 none) [.identity] 4 2 (fun i => i)).1 _ (.time 5 8 none 4)

/-- **C275, refuted**: the discriminator's or generator's result for windows of samples (a time dimension per window, `m` samples each at
`f` every sample) is said to have samples every `f` too, however many values `m'` the network makes of a window: the window said to take
`(m' - 1) f + u` picoseconds does not take the same time as the data's `(m - 1) f + u`, unless the number of values is kept. -/
theorem C275_stale_refuted {α : Type} (f₀ u₀ f u : Int) (hf : 0 < f) (s₀ s : Option Nat) (n m m' c : Nat) (hm : m' ≠ m) (get : List Nat → α) (last : LibDim φ) :
    ganUnits (libOps X) (some [.time f₀ u₀ s₀, .time f u s, last]) [n, m', c] get =
      .ok (.units ⟨[n, m', c], [.time f₀ u₀ (some n), .time f u (some m'), .identity], get⟩) ∧
    ((m' : Int) - 1) * f + u ≠ ((m : Int) - 1) * f + u := by
  constructor
  · refine (C274_gan X _ _ get).1 _ ?_
    refine (describesAll_cons ..).mpr ⟨_, _, rfl, .time f₀ u₀ s₀ n, ?_⟩
    refine (describesAll_cons ..).mpr ⟨_, _, rfl, .time f u s m', ?_⟩
    exact (describesAll_cons ..).mpr ⟨_, _, rfl, .identity c, rfl, rfl, fun k h => by simp at h⟩
  · intro h
    have h1 : ((m' : Int) - 1) * f = ((m : Int) - 1) * f := by omega
    have := Int.eq_of_mul_eq_mul_right (by omega) h1
    omega

/-- **C275** (what does hold): results keep the rows' dimension and the values' dimensions are right exactly if every middle axis keeps its
size. -/
theorem C275_same_size {α : Type} (ds : List (LibDim φ)) (shape : List Nat) (c' : Nat) (last : LibDim φ)
    (get : List Nat → α) (hin : DescribesAll ds shape ds) :
    ganUnits (libOps X) (some (ds ++ [last])) (shape ++ [c']) get = .ok (.units ⟨shape ++ [c'], ds ++ [.identity], get⟩) := by
  refine (C274_gan X _ _ get).1 _ ?_
  rw [List.dropLast_concat]
  obtain ⟨h1, h2, h3⟩ := hin
  refine ⟨by simp [h1], by simp [h2], ?_⟩
  intro k k1 k2 k3
  by_cases hk : k < ds.length
  · rw [List.getElem_append_left hk, List.getElem_append_left (by omega)]
    exact h3 k hk (by omega) hk
  · have : k = ds.length := by simp at k1; omega
    subst this
    simp only [List.getElem_concat_length]
    exact .identity _

example := C275_same_size (⟨fun _ _ _ => [], fun _ _ => [], fun _ _ => []⟩ : Freq.NumExt ℚ) [.time 5 8 (some 4)] [4] 2 (.freq (.explicit [⟨0, 1⟩])) (fun i => i)
  ((describesAll_cons ..).mpr ⟨_, [], rfl, .time 5 8 (some 4) 4, rfl, rfl, fun k h => absurd h (by simp)⟩)

end units

/-! ## Training -/

/-- The network, applied to examples one by one. -/
theorem apply_rowwise {R S : Type} (net : List R → List S) (h : RowWise net) (x : List R) (hx : x ≠ []) (c : Int) (hc : 0 < c) :
    applyNetwork net x (some c) = .ok (net x) := by
  have := Learn.C38_chunking net h x hx c.toNat (by omega)
  rw [show ((c.toNat : Nat) : Int) = c by omega] at this
  rw [this]; rfl

theorem mapRows_total {α β : Type} (net : α → β) (l : List α) : mapRows (fun x => (.ok (net x) : Except PyErr β)) l = .ok (l.map net) := by
  induction l with
  | nil => rfl
  | cons a l ih => simp only [mapRows, ih]; rfl

/-- A network that does not fail is applied as in `Learn.applyNetwork`. -/
theorem applyFailing_total {α β : Type} (net : List α → List β) (x : List α) (c : Option Int) :
    applyFailing (fun x => .ok (net x)) x c = applyNetwork net x c := by
  cases c with
  | none => rfl
  | some c =>
    unfold applyFailing applyNetwork
    simp only [mapRows_total, chunksOf]
    by_cases h0 : c = 0
    · rw [if_pos h0, if_pos h0]
    · rw [if_neg h0, if_neg h0]
      by_cases h1 : c < 0
      · rw [if_pos h1, if_pos h1]; rfl
      · rw [if_neg h1, if_neg h1, List.map_map]
        show (match (Except.ok _ : Except PyErr (List (List β))) with | .error e => _ | .ok [] => _ | .ok cs => _) = _
        cases (Learn.rangeStep x.length c.toNat) <;> rfl

/-- **C276** (`PyTorchNetwork`): a network that treats examples on their own (C269), trained with positive sizes on any data: the stored operation,
given what the network was applied to after training, produces what was handed on to later nodes: one result per example, whatever the
chunk sizes. -/
theorem C276_network {R L S : Type} (prep : List R × List L → List R × List L) (train : List R × List L → List R → List S) (post : List R → List R)
    (chunksize : Option Int) (batchSize : Int) (data : List R × List L) (hc : ∀ c, chunksize = some c → 0 ≤ c) (hb : 0 < batchSize)
    (hrow : ∀ d, RowWise (train d)) (hne : post (prep data).1 ≠ []) :
    ∃ r, netProcess prep train post chunksize batchSize data = .ok r ∧ r.handed = train (prep data) (post (prep data).1) ∧
      r.stored (post (prep data).1) = .ok r.handed ∧ r.handed.length = (post (prep data).1).length ∧
      ∀ x, x ≠ [] → r.stored x = .ok (train (prep data) x) := by
  have h1 : 0 < Ops.trainingChunk chunksize batchSize := by
    unfold Ops.trainingChunk
    cases chunksize with
    | none => exact hb
    | some c =>
      have := hc c rfl
      simp only []
      split <;> omega
  have e1 := apply_rowwise (train (prep data)) (hrow _) _ hne _ h1
  refine ⟨⟨train (prep data) (post (prep data).1), fun x => applyNetwork (train (prep data)) x (some (Ops.storedChunk chunksize batchSize))⟩, ?_, rfl, ?_, ?_, ?_⟩
  · unfold netProcess netProcessE
    simp only [applyFailing_total]
    simp only [e1]
  · exact apply_rowwise _ (hrow _) _ hne _ hb
  · obtain ⟨f, hf⟩ := hrow (prep data)
    simp [hf]
  · intro x hx
    exact apply_rowwise _ (hrow _) x hx _ hb

example := C276_network (L := Int) id (fun _ x => x.map (· + 1)) id (some 2) 3 ([1, 2, 3, 4], []) (by intro c h; cases h; decide) (by decide)
  (fun _ => ⟨_, fun _ => rfl⟩) (by simp)

/-- **C276** (`PyTorchGan`, applying the discriminator): later nodes are handed what the stored operation gives for the training data. -/
theorem C276_discriminator {R S : Type} (train : List R → (List R → List S) × (List R → List S)) (data : List R)
    (hrow : ∀ d, RowWise (train d).2) (hne : data ≠ []) :
    ∃ r, ganProcess train false data = .ok r ∧ r.handed = (train data).2 data ∧ r.stored data = .ok r.handed ∧ r.handed.length = data.length := by
  have e := apply_rowwise (train data).2 (hrow _) data hne 128 (by decide)
  refine ⟨⟨(train data).2 data, fun x => applyNetwork (train data).2 x (some 128)⟩, ?_, rfl, ?_, ?_⟩
  · unfold ganProcess ganProcessE
    simp only [applyFailing_total]
    simp only [e]
    simp [applyFailing_total]
  · exact e
  · obtain ⟨f, hf⟩ := hrow data
    simp [hf]

example := C276_discriminator (fun _ : List Int => (fun x => x.map (2 * ·), fun x => x.map fun v => if 0 < v then 1 else 0)) [1, -2, 3] (fun _ => ⟨_, fun _ => rfl⟩) (by simp)

/-- **C276** (`PyTorchAutoEncoder`): likewise, the encoded training data. -/
theorem C276_autoencoder {R S : Type} (train : List R × List R → List R → List S) (data : List R) (hrow : ∀ d, RowWise (train d)) (hne : data ≠ []) :
    ∃ stored, autoProcess train data = .ok (some (train (data, data) data), stored) ∧ stored data = .ok (train (data, data) data) := by
  have e := apply_rowwise (train (data, data)) (hrow _) data hne 128 (by decide)
  refine ⟨fun x => applyNetwork (train (data, data)) x (some 128), ?_, e⟩
  unfold autoProcess autoProcessE
  simp only [applyFailing_total]
  simp only [e]

example := C276_autoencoder (fun _ (x : List Int) => x.map (2 * ·)) [1, -2, 3] (fun _ => ⟨_, fun _ => rfl⟩) (by simp)

/-- **C276** (`PyTorchAutoEncoder`, no training data): nothing is handed on; what is stored encodes any examples, and refuses none at all with ValueError as ever. -/
theorem C276_autoencoder_empty {R S : Type} (train : List R × List R → List R → List S) (hrow : ∀ d, RowWise (train d)) :
    ∃ stored, autoProcess train [] = .ok (none, stored) ∧ (∀ x, x ≠ [] → stored x = .ok (train ([], []) x)) ∧ stored [] = .error .valueError := by
  have e : applyNetwork (train ([], [])) [] (some 128) = .error .valueError := by simp [applyNetwork, Learn.rangeStep]
  refine ⟨fun x => applyNetwork (train ([], [])) x (some 128), ?_, fun x hx => apply_rowwise _ (hrow _) x hx 128 (by decide), e⟩
  unfold autoProcess autoProcessE
  simp only [applyFailing_total]
  simp only [e]

example := C276_autoencoder_empty (fun _ (x : List Int) => x.map (2 * ·)) (fun _ => ⟨_, fun _ => rfl⟩)

theorem mapRows_ok {α β : Type} (f : α → Except PyErr β) (l : List α) (r : List β) :
    mapRows f l = .ok r ↔ List.Forall₂ (fun x y => f x = .ok y) l r := by
  induction l generalizing r with
  | nil =>
    constructor
    · intro h; cases h; exact .nil
    · intro h; cases h; rfl
  | cons x xs ih =>
    simp only [mapRows]
    constructor
    · intro h
      cases hx : f x with
      | error e => rw [hx] at h; simp [Except.bind] at h
      | ok y =>
        rw [hx] at h
        simp only [Except.bind] at h
        cases hxs : mapRows f xs with
        | error e => rw [hxs] at h; simp [Except.map] at h
        | ok ys =>
          rw [hxs] at h
          simp only [Except.map, Except.ok.injEq] at h
          subst h
          exact .cons hx ((ih ys).mp hxs)
    · intro h
      cases h with
      | cons h1 h2 => rw [h1, Except.bind, (ih _).mpr h2]; rfl

/-- **C276** (`SimHash`): the planes are the differences of two draws with the means and deviations of the examples; whatever is drawn, the codes handed on are what the stored operation gives for the training data, one per example, each
with one bit per plane. -/
theorem C276_simhash (a b : List ℝ → List ℝ → List (List ℝ)) (d : Pipeline.Batch) (r : Result (List ℝ) (List Bool))
    (h : simProcess a b d = .ok r) :
    r.stored d.rows = .ok r.handed ∧
    ∃ planes : List (List ℝ), planes = List.zipWith (fun p q => List.zipWith (· - ·) p q) (a (Fit.colMean d) (Fit.colStd d)) (b (Fit.colMean d) (Fit.colStd d)) ∧
      List.Forall₂ (fun x code => (∀ p ∈ planes, p.length = x.length) ∧
      code = planes.map fun p => decide (0 < Pipeline.dot p x)) d.rows r.handed := by
  unfold simProcess at h
  split at h
  · cases h
  · rename_i planes hpl
    split at h
    · cases h
    · rename_i codes hc
      cases h
      refine ⟨hc, planes, ?_, ?_⟩
      · unfold Pipeline.hyperplanes at hpl
        split at hpl
        · cases hpl
        · exact (Except.ok.inj hpl).symm
      refine ((mapRows_ok _ _ _).mp hc).imp ?_
      intro x y hxy
      unfold Pipeline.simhash at hxy
      split at hxy
      · rename_i hp
        cases hxy
        exact ⟨by simpa using hp, rfl⟩
      · cases hxy

example : ∃ r, simProcess (fun _ _ => [[1, 1], [0, 1]]) (fun _ _ => [[0, 0], [1, 0]]) ⟨[2], [[3, -1], [0, 2]]⟩ = .ok r := by
  unfold simProcess
  have hl : (Fit.colMean ⟨[2], [[3, -1], [0, 2]]⟩).length = (Fit.colStd ⟨[2], [[3, -1], [0, 2]]⟩).length := by simp [Fit.colMean, Fit.colStd]
  simp [Pipeline.hyperplanes, hl, mapRows, Pipeline.simhash, Pipeline.dot]
  exact ⟨_, rfl⟩

/-- A gan whose generator doubles and whose discriminator asks for positive numbers. -/
def demoGan (_ : List Int) : (List Int → List Int) × (List Int → List Int) :=
  (fun x => x.map (2 * ·), fun x => x.map fun v => if 0 < v then 1 else 0)

example : ∀ d, RowWise (demoGan d).2 := fun _ => ⟨_, fun _ => rfl⟩

/-- **C277, refuted** (`PyTorchGan` by default): with apply_network='generator' later nodes are trained on the discriminator's results, and given the
generator's when the pipeline is used. -/
theorem C277_generator_refuted {R S : Type} (train : List R → (List R → List S) × (List R → List S)) (data : List R)
    (hrow : ∀ d, RowWise (train d).1 ∧ RowWise (train d).2) (hne : data ≠ []) :
    ∃ r, ganProcess train true data = .ok r ∧ r.handed = (train data).2 data ∧ r.stored data = .ok ((train data).1 data) := by
  have e := apply_rowwise (train data).2 (hrow _).2 data hne 128 (by decide)
  refine ⟨⟨(train data).2 data, fun x => applyNetwork (train data).1 x (some 128)⟩, ?_, rfl, ?_⟩
  · unfold ganProcess ganProcessE
    simp only [applyFailing_total]
    simp only [e]
    simp [applyFailing_total]
  · exact apply_rowwise (train data).1 (hrow _).1 data hne 128 (by decide)

/-- **C277** (exactly when): under the generator, training and use agree for exactly the data on which generator and discriminator agree. -/
theorem C277_generator {R S : Type} (train : List R → (List R → List S) × (List R → List S)) (data : List R)
    (hrow : ∀ d, RowWise (train d).1 ∧ RowWise (train d).2) (hne : data ≠ []) (r : Result R S) (h : ganProcess train true data = .ok r) :
    r.stored data = .ok r.handed ↔ (train data).1 data = (train data).2 data := by
  obtain ⟨r', h1, h2, h3⟩ := C277_generator_refuted train data hrow hne
  rw [h] at h1
  cases h1
  rw [h2, h3, Except.ok.injEq]

example : ∃ r, ganProcess demoGan true [1, -2, 3] = .ok r ∧ (r.stored [1, -2, 3] = .ok r.handed ↔ (demoGan [1, -2, 3]).1 [1, -2, 3] = (demoGan [1, -2, 3]).2 [1, -2, 3]) := by
  obtain ⟨r, h⟩ : ∃ r, ganProcess demoGan true [1, -2, 3] = .ok r := ⟨_, rfl⟩
  exact ⟨r, h, C277_generator demoGan [1, -2, 3] (fun _ => ⟨⟨_, fun _ => rfl⟩, ⟨_, fun _ => rfl⟩⟩) (by simp) r h⟩

/-- **C277, refuted** (a concrete case). -/
theorem C277_demo_refuted : ∃ r, ganProcess demoGan true [1, -1] = .ok r ∧ r.handed = [1, 0] ∧ r.stored [1, -1] = .ok [2, -2] := by
  obtain ⟨r, h1, h2, h3⟩ := C277_generator_refuted demoGan [1, -1] (fun _ => ⟨⟨_, fun _ => rfl⟩, ⟨_, fun _ => rfl⟩⟩) (by simp)
  exact ⟨r, h1, h2, h3⟩

/-- **C277** (construction): any other name is refused; the generator is meant by default. -/
theorem C277_init (name : String) :
    (ganInit name = .ok true ↔ name = "generator") ∧ (ganInit name = .ok false ↔ name = "discriminator") ∧
    (ganInit name = .error .valueError ↔ name ≠ "generator" ∧ name ≠ "discriminator") := by
  unfold ganInit
  by_cases h1 : name = "generator"
  · subst h1; decide
  · by_cases h2 : name = "discriminator"
    · subst h2; decide
    · simp [h1, h2]

/-- **C277, refuted** (`PyTorchNetwork`): later nodes are trained on what the network makes of the prepared and post-processed data; for the data
itself the stored operation gives something else. -/
theorem C277_prepared_refuted :
    ∃ r, netProcess (fun d : List Int × List Int => (d.1.map (10 * ·), d.2)) (fun _ x => x.map (· + 1)) (fun x => x.take 1) none 4 ([1, 2], []) = .ok r ∧
      r.handed = [11] ∧ r.stored [1, 2] = .ok [2, 3] := by
  refine ⟨⟨[11], fun x => applyNetwork (fun x => x.map (· + 1)) x (some 4)⟩, ?_, rfl, ?_⟩
  · unfold netProcess netProcessE
    simp only [applyFailing_total]
    rfl
  exact apply_rowwise (fun x : List Int => x.map (· + 1)) ⟨_, fun _ => rfl⟩ [1, 2] (by simp) 4 (by decide)

/-! ## C305: networks that fail -/

/-- Applied to `x` in chunks of `c`, the network fails: the first chunk it refuses, it refuses with `e`. -/
def FailsWith {R S : Type} (net : List R → Except PyErr (List S)) (x : List R) (c : Nat) (e : PyErr) : Prop :=
  ∃ k : Nat, k * c < x.length ∧ net ((x.drop (k * c)).take c) = .error e ∧ ∀ j : Nat, j < k → ∃ s, net ((x.drop (j * c)).take c) = .ok s

theorem mapRows_error {α β : Type} (f : α → Except PyErr β) (l : List α) (e : PyErr) :
    mapRows f l = .error e ↔ ∃ k : Nat, ∃ h : k < l.length, f l[k] = .error e ∧ ∀ j : Nat, ∀ hj : j < k, ∃ s, f l[j] = .ok s := by
  induction l with
  | nil => simp [mapRows]
  | cons x xs ih =>
    simp only [mapRows]
    cases hx : f x with
    | error e' =>
      simp only [Except.bind, Except.error.injEq]
      constructor
      · rintro rfl
        exact ⟨0, by simp, by simpa using hx, fun j hj => absurd hj (by omega)⟩
      · rintro ⟨k, hk, h1, h2⟩
        cases k with
        | zero =>
          simp only [List.getElem_cons_zero, hx, Except.error.injEq] at h1
          exact h1
        | succ k =>
          obtain ⟨s, hs⟩ := h2 0 (by omega)
          simp [hx] at hs
    | ok y =>
      simp only [Except.bind]
      have : (Except.map (fun t => y :: t) (mapRows f xs) = .error e) ↔ mapRows f xs = .error e := by
        cases mapRows f xs <;> simp [Except.map]
      rw [this, ih]
      constructor
      · rintro ⟨k, hk, h1, h2⟩
        refine ⟨k + 1, by simpa using hk, by simpa using h1, ?_⟩
        intro j hj
        cases j with
        | zero => exact ⟨y, by simpa using hx⟩
        | succ j => simpa using h2 j (by omega)
      · rintro ⟨k, hk, h1, h2⟩
        cases k with
        | zero => simp [hx] at h1
        | succ k =>
          refine ⟨k, by simpa using hk, by simpa using h1, ?_⟩
          intro j hj
          simpa using h2 (j + 1) (by omega)

theorem take_drop_chunk {α : Type} (x : List α) (i c : Nat) : (x.take (i + c)).drop i = (x.drop i).take c := by
  rw [List.drop_take]; congr 1; omega

/-- Applying a network in chunks fails exactly if it refuses a chunk, with the first error. -/
theorem applyFailing_error {R S : Type} (net : List R → Except PyErr (List S)) (x : List R) (hx : x ≠ []) (c : Int) (hc : 0 < c) (e : PyErr) :
    applyFailing net x (some c) = .error e ↔ FailsWith net x c.toNat e := by
  have hl : 0 < x.length := List.length_pos_iff.2 hx
  obtain ⟨n, hn⟩ : ∃ n, n = c.toNat := ⟨_, rfl⟩
  have hn0 : 0 < n := by omega
  have hch : chunksOf x c = (List.range ((x.length + n - 1) / n)).map fun (k : Nat) => (x.drop (k * n)).take n := by
    unfold chunksOf Learn.rangeStep
    rw [if_neg (by omega), ← hn, List.map_map]
    apply List.map_congr_left
    intro k _
    exact take_drop_chunk _ _ _
  have hlt : ∀ k, k < (x.length + n - 1) / n ↔ k * n < x.length := by
    intro k
    rw [Nat.lt_div_iff_mul_lt hn0]
    have := Nat.mul_comm n k
    omega
  have hpos : 0 < (x.length + n - 1) / n := (hlt 0).2 (by simpa using hl)
  have h1 : applyFailing net x (some c) = .error e ↔ mapRows net (chunksOf x c) = .error e := by
    unfold applyFailing
    simp only [if_neg (show ¬ c = 0 by omega)]
    cases hm : mapRows net (chunksOf x c) with
    | error e' => simp
    | ok cs =>
      have := ((mapRows_ok _ _ _).mp hm).length_eq
      rw [hch] at this
      cases cs with
      | nil => simp at this; omega
      | cons a cs => simp
  rw [h1, mapRows_error, hch, ← hn]
  constructor
  · rintro ⟨k, hk, h2, h3⟩
    refine ⟨k, (hlt k).1 (by simpa using hk), by simpa using h2, ?_⟩
    intro j hj
    simpa using h3 j hj
  · rintro ⟨k, hk, h2, h3⟩
    refine ⟨k, by simpa using (hlt k).2 hk, by simpa using h2, ?_⟩
    intro j hj
    simpa using h3 j hj

/-- What the caller of a trained node sees for an error of the network. -/
def Seen (e e' : PyErr) : Prop := (e = .runtimeError ∧ e' = .attributeError) ∨ (e ≠ .runtimeError ∧ e' = e)

theorem seen_iff (e e' : PyErr) : Seen e e' ↔ onRuntime e = e' := by
  cases e <;> cases e' <;> simp [Seen, onRuntime]

/-- **C305** (`PyTorchNetwork`, exactly when): after training, the node fails exactly if the trained network refuses a chunk of the training data; the error is the network's,
except that a RuntimeError (out of memory, which the node means to warn about) arrives as AttributeError. -/
theorem C305_network {R L S : Type} (prep : List R × List L → List R × List L) (train : List R × List L → List R → Except PyErr (List S)) (post : List R → List R)
    (batchSize : Int) (data : List R × List L) (hb : 0 < batchSize) (hne : post (prep data).1 ≠ []) (e' : PyErr) :
    netProcessE prep train post none batchSize data = .error e' ↔
      ∃ e, FailsWith (train (prep data)) (post (prep data).1) batchSize.toNat e ∧ Seen e e' := by
  have key := applyFailing_error (train (prep data)) (post (prep data).1) hne batchSize hb
  have h1 : netProcessE prep train post none batchSize data = match applyFailing (train (prep data)) (post (prep data).1) (some batchSize) with
      | .error e => .error (onRuntime e)
      | .ok s => .ok ⟨s, fun x => applyFailing (train (prep data)) x (some batchSize)⟩ := rfl
  rw [h1]
  cases ha : applyFailing (train (prep data)) (post (prep data).1) (some batchSize) with
  | error e =>
    simp only [Except.error.injEq]
    constructor
    · intro h; exact ⟨e, (key e).1 ha, (seen_iff _ _).2 h⟩
    · rintro ⟨e2, h2, h3⟩
      have := (key e2).2 h2
      rw [ha] at this
      cases this
      exact (seen_iff _ _).1 h3
  | ok s =>
    simp only [reduceCtorEq, false_iff]
    rintro ⟨e2, h2, -⟩
    have := (key e2).2 h2
    rw [ha] at this
    cases this

example := C305_network (L := Int) id (fun _ (x : List Int) => if x.length ≤ 1 then .ok x else .error .runtimeError) id 2 ([1, 2], []) (by decide) (by simp) .runtimeError

/-- **C305** (`PyTorchGan`, exactly when): likewise for the discriminator in chunks of 128, whichever network is asked for. -/
theorem C305_gan {R S : Type} (train : List R → (List R → Except PyErr (List S)) × (List R → Except PyErr (List S))) (generator : Bool) (data : List R)
    (hne : data ≠ []) (e' : PyErr) :
    ganProcessE train generator data = .error e' ↔ ∃ e, FailsWith (train data).2 data 128 e ∧ Seen e e' := by
  have key := applyFailing_error (train data).2 data hne 128 (by decide)
  unfold ganProcessE
  cases ha : applyFailing (train data).2 data (some 128) with
  | error e =>
    simp only [ha, Except.error.injEq]
    constructor
    · intro h; exact ⟨e, (key e).1 ha, (seen_iff _ _).2 h⟩
    · rintro ⟨e2, h2, h3⟩
      have := (key e2).2 h2
      rw [ha] at this
      cases this
      exact (seen_iff _ _).1 h3
  | ok s =>
    simp only [ha, reduceCtorEq, false_iff]
    rintro ⟨e2, h2, -⟩
    have := (key e2).2 h2
    rw [ha] at this
    cases this

example := C305_gan (fun _ : List Int => (fun x => .ok x, fun x => if x.length ≤ 1 then .ok x else .error .runtimeError)) true [1, 2] (by simp) .runtimeError

/-- **C305** (`PyTorchAutoEncoder`): a ValueError of the encoder leaves later nodes without examples and the encoder stored; any other error is passed on, a RuntimeError as
AttributeError: the promised attempts with less data are never made. -/
theorem C305_autoencoder {R S : Type} (train : List R × List R → List R → Except PyErr (List S)) (data : List R) (hne : data ≠ []) :
    (∀ e', autoProcessE train data = .error e' ↔ ∃ e, FailsWith (train (data, data)) data 128 e ∧ e ≠ .valueError ∧ Seen e e') ∧
    ((∃ stored, autoProcessE train data = .ok (none, stored)) ↔ FailsWith (train (data, data)) data 128 .valueError) := by
  have key := applyFailing_error (train (data, data)) data hne 128 (by decide)
  unfold autoProcessE
  cases ha : applyFailing (train (data, data)) data (some 128) with
  | ok s =>
    have hno : ∀ e, ¬ FailsWith (train (data, data)) data 128 e := by
      intro e h
      have := (key e).2 h
      rw [ha] at this
      cases this
    refine ⟨fun e' => ?_, ?_⟩
    · simp only [ha, reduceCtorEq, false_iff]
      rintro ⟨e, h, -⟩
      exact hno e h
    · simp only [ha]
      constructor
      · rintro ⟨st, h⟩; simp at h
      · intro h; exact absurd h (hno _)
  | error e =>
    have hone : ∀ e2, FailsWith (train (data, data)) data 128 e2 ↔ e2 = e := by
      intro e2
      rw [show (128 : Nat) = (128 : Int).toNat from rfl, ← key e2, ha, Except.error.injEq]
      exact eq_comm
    simp only [ha, hone, exists_eq_left]
    refine ⟨fun e' => ?_, ?_⟩
    · rw [seen_iff]
      cases e <;> simp [onRuntime]
    · cases e <;> simp

example := C305_autoencoder (fun _ (x : List Int) => if x.length ≤ 1 then .ok x else .error .runtimeError) [1, 2] (by simp)

/-- **C305, refuted**: "too large for the device" is survivable.  A network that can only be given one example at a time: training is lost. -/
theorem C305_memory_refuted :
    let net : List Int → Except PyErr (List Int) := fun x => if x.length ≤ 1 then .ok x else .error .runtimeError
    netProcessE id (fun _ : List Int × List Int => net) id none 4 ([1, 2], []) = .error .attributeError ∧
    ganProcessE (fun _ => (net, net)) true [1, 2] = .error .attributeError ∧
    (match autoProcessE (fun _ => net) [1, 2] with | .error e => e = .attributeError | .ok _ => False) := by
  have h : FailsWith (fun x : List Int => if x.length ≤ 1 then (.ok x : Except PyErr (List Int)) else .error .runtimeError) [1, 2] 128 .runtimeError :=
    ⟨0, by decide, rfl, fun j hj => absurd hj (by omega)⟩
  have h4 : FailsWith (fun x : List Int => if x.length ≤ 1 then (.ok x : Except PyErr (List Int)) else .error .runtimeError) [1, 2] 4 .runtimeError :=
    ⟨0, by decide, rfl, fun j hj => absurd hj (by omega)⟩
  refine ⟨(C305_network _ _ _ _ _ (by decide) (by simp) _).2 ⟨_, h4, .inl ⟨rfl, rfl⟩⟩, (C305_gan _ _ _ (by simp) _).2 ⟨_, h, .inl ⟨rfl, rfl⟩⟩, ?_⟩
  rw [((C305_autoencoder (fun _ => _) [1, 2] (by simp)).1 .attributeError).2 ⟨_, h, by simp, .inl ⟨rfl, rfl⟩⟩]

/-- The same network given one example at a time by the batch size: nothing fails. -/
example : ∃ r, netProcessE id (fun (_ : List Int × List Int) (x : List Int) => if x.length ≤ 1 then .ok x else .error .runtimeError) id none 1 ([1, 2], []) = .ok r ∧
    r.handed = [1, 2] := ⟨_, rfl, rfl⟩

end Zounds.Forward
