import Verif.Props.Ops

/-!
# C194-C200: trained networks as steps of a pipeline, learning pipelines
-/

namespace Zounds.Ops
open Zounds

/-! ## Specification -/

/-- The last value with this name. -/
def lastOf {D : Type} (pushed : List (String × D)) (k : String) : Option D := get pushed.reverse k

/-- What a node with these needs should process: after every arrival with which all of them have delivered since the last time (`since`), the last value of each. -/
def expected {D : Type} (needs : List String) : List (String × D) → List (String × D) → List (Option (String → Option D))
  | _, [] => []
  | since, kd :: rest =>
    if ∀ n ∈ needs, n ∈ (since ++ [kd]).map (·.1) then some (lastOf (since ++ [kd])) :: expected needs [] rest
    else none :: expected needs (since ++ [kd]) rest

/-! ## C194 -/

theorem lastOf_append {D : Type} (since : List (String × D)) (kd : String × D) (k : String) : lastOf (since ++ [kd]) k = if k = kd.1 then some kd.2 else lastOf since k := by
  unfold lastOf
  rw [List.reverse_append, List.reverse_singleton, List.singleton_append, get_cons]
  by_cases h : kd.1 = k
  · rw [if_pos h, if_pos h.symm]
  · rw [if_neg h, if_neg (fun e => h e.symm)]

theorem network_expected {D : Type} (needs : List String) (hn : needs.Nodup) : ∀ (hist since : List (String × D)) (cache : Option (Dict D)),
    (∀ kd ∈ hist, kd.1 ∈ needs) → ((cache.getD []).map (·.1)).Nodup → (∀ k ∈ (cache.getD []).map (·.1), k ∈ needs) → (∀ k, get (cache.getD []) k = lastOf since k) →
    (network needs.length cache hist).map (Option.map get) = expected needs since hist
  | [], _, _, _, _, _, _ => rfl
  | (k, d) :: rest, since, cache, hh, h1, h2, h3 => by
    have hk : k ∈ needs := hh (k, d) (by simp)
    have hget : ∀ k', get (enqueue cache k d) k' = lastOf (since ++ [(k, d)]) k' := by
      intro k'
      unfold enqueue
      rw [get_put, lastOf_append, h3]
    have hnd : ((enqueue cache k d).map (·.1)).Nodup := by
      unfold enqueue
      rw [put_keys]
      split
      · exact h1
      · rename_i hne
        rw [List.nodup_append]
        refine ⟨h1, by simp, ?_⟩
        intro a ha b hb
        simp only [List.mem_singleton] at hb
        rw [hb]
        intro e
        exact hne (e ▸ ha)
    have hsub : ∀ k' ∈ (enqueue cache k d).map (·.1), k' ∈ needs := by
      intro k' hk'
      unfold enqueue at hk'
      rw [put_keys] at hk'
      split at hk'
      · exact h2 k' hk'
      · rcases List.mem_append.1 hk' with h | h
        · exact h2 k' h
        · simp only [List.mem_singleton] at h; rw [h]; exact hk
    have hmem : ∀ k', k' ∈ (enqueue cache k d).map (·.1) ↔ k' ∈ (since ++ [(k, d)]).map (·.1) := by
      intro k'
      rw [← get_isSome, hget, lastOf, get_isSome, List.map_reverse, List.mem_reverse]
    have hcov : (enqueue cache k d).length = needs.length ↔ ∀ n ∈ needs, n ∈ (since ++ [(k, d)]).map (·.1) := by
      have hsp : List.Subperm ((enqueue cache k d).map (·.1)) needs := List.subperm_of_subset hnd hsub
      constructor
      · intro hl n hn'
        have := hsp.perm_of_length_le (by rw [List.length_map, hl])
        exact (hmem n).1 (this.mem_iff.2 hn')
      · intro hall
        have : List.Subperm needs ((enqueue cache k d).map (·.1)) := List.subperm_of_subset hn (fun n hn' => (hmem n).2 (hall n hn'))
        have e1 := hsp.length_le
        have e2 := this.length_le
        rw [List.length_map] at e1 e2
        omega
    unfold network expected dequeue
    simp only []
    by_cases hc : (enqueue cache k d).length = needs.length
    · rw [if_pos (hcov.1 hc)]
      simp only [hc, ne_eq, not_true_eq_false, if_false]
      rw [List.map_cons]
      congr 1
      · simp only [Option.map_some]
        congr 1
        funext k'
        exact hget k'
      · exact network_expected needs hn rest [] none (fun kd h => hh kd (by simp [h])) (by simp) (by simp) (by intro k; rfl)
    · rw [if_neg (fun h => hc (hcov.2 h))]
      simp only [hc, ne_eq, not_false_eq_true, if_true]
      rw [List.map_cons]
      congr 1
      exact network_expected needs hn rest (since ++ [(k, d)]) (some (enqueue cache k d)) (fun kd h => hh kd (by simp [h])) hnd hsub hget

/-- **C194, training data**: whatever the order in which the needs of a network node deliver, it is trained exactly after those arrivals with which all of its needs have delivered something
since it was last trained, with the last value of each. -/
theorem C194_training {D : Type} (needs : List String) (hn : needs.Nodup) (hist : List (String × D)) (hh : ∀ kd ∈ hist, kd.1 ∈ needs) :
    (network needs.length (some []) hist).map (Option.map get) = expected needs [] hist :=
  network_expected needs hn hist [] (some []) hh (by simp) (by simp) (by intro k; rfl)

example := C194_training ["data", "labels"] (by decide) [("data", 1), ("data", 2), ("labels", 3), ("labels", 4)] (by decide)

/-- Data twice, then labels: the second data is used; nothing of it is left for the next labels. -/
example : (network 2 (some []) [("data", 1), ("data", 2), ("labels", 3), ("labels", 4)] : List (Option (Dict Nat))) =
    [none, none, some [("data", 2), ("labels", 3)], none] := by decide +kernel

/-! ## C195, C196 -/

/-- **C195, refuted**: when applying the trained network to its training data fails with a RuntimeError (too large for the device), the node raises an AttributeError and the trained network is
lost; without it there is a result. -/
theorem C195_memory_refuted {D : Type} (kind : Kind3) (d : D) :
    processed kind (.runtimeError : Applied D) = .error .attributeError ∧ processed kind (.ok d) = .ok (some d) := by
  cases kind <;> exact ⟨rfl, rfl⟩

/-- C195: a ValueError of the trained network is raised again, except by an autoencoder's node, whose result then has no data. -/
theorem C195_value {D : Type} (kind : Kind3) :
    processed kind (.valueError : Applied D) = if kind = .autoencoder then .ok none else .error .valueError := by
  cases kind <;> rfl

/-- **C196, refuted**: a chunk size smaller than the trainer's batch size limits what the network is given during training only: the stored operation gives it `batch_size` examples at once, when there are as many. -/
theorem C196_chunk_refuted {α : Type} (chunksize batchSize : Nat) (h0 : 0 < chunksize) (hlt : chunksize < batchSize) (x : List α) (hx : batchSize ≤ x.length) :
    (∀ b ∈ batches x (trainingChunk (some (chunksize : Int)) batchSize).toNat, b.length ≤ chunksize) ∧
      ∃ b ∈ batches x (storedChunk (some (chunksize : Int)) batchSize).toNat, b.length = batchSize ∧ chunksize < b.length := by
  constructor
  · intro b hb
    unfold trainingChunk at hb
    simp only [] at hb
    rw [if_neg (by omega)] at hb
    unfold batches at hb
    obtain ⟨i, _, rfl⟩ := List.mem_map.1 hb
    rw [List.length_drop, List.length_take]
    simp only [Int.toNat_natCast]
    omega
  · refine ⟨x.take batchSize, ?_, by rw [List.length_take]; omega, by rw [List.length_take]; omega⟩
    unfold storedChunk batches Learn.rangeStep
    simp only [Int.toNat_natCast]
    refine List.mem_map.2 ⟨0, List.mem_map.2 ⟨0, ?_, by simp⟩, by simp⟩
    rw [List.mem_range]
    apply Nat.div_pos <;> omega

/-! ## C197, C198: storing -/

theorem initArgs_ok {A : Type} (dict : Dict A) : ∀ (ks : List String), (∀ k ∈ ks, k ∈ dict.map (·.1)) → ∃ vs, initArgs dict ks = .ok vs ∧ ks.map (get dict) = vs.map some
  | [], _ => ⟨[], rfl, rfl⟩
  | k :: ks, h => by
    obtain ⟨vs, h1, h2⟩ := initArgs_ok dict ks (fun k hk => h k (by simp [hk]))
    have := (get_isSome dict k).2 (h k (by simp))
    obtain ⟨v, hv⟩ := Option.isSome_iff_exists.1 this
    refine ⟨v :: vs, by simp [initArgs, hv, h1], by simp [hv, h2]⟩

theorem initArgs_missing {A : Type} (dict : Dict A) : ∀ (ks : List String), (∃ k ∈ ks, k ∉ dict.map (·.1)) → initArgs dict ks = .error .keyError
  | [], h => by simp at h
  | k :: ks, h => by
    unfold initArgs
    cases hg : get dict k with
    | none => rfl
    | some v =>
      have hk : k ∈ dict.map (·.1) := (get_isSome dict k).1 (by rw [hg]; rfl)
      obtain ⟨k', hk', hne⟩ := h
      rcases List.mem_cons.1 hk' with rfl | hk'
      · exact absurd hk hne
      · simp only [initArgs_missing dict ks ⟨k', hk', hne⟩]

/-- **C197, storing and loading**: a result whose network has its constructor's arguments as members and whose class builds, of these arguments, a network with the same names of weights, can be
stored and loaded: it has a network of the same class built of the same arguments, with the same weights, in evaluation mode; the operation's other arguments, the functions and the name are the same. -/
theorem C197_roundtrip {A W R : Type} (classes : String → Option (NetClass A W)) (r : NetResult A W R) (n : Net A W) (others : Dict (KV A W))
    (hk : r.op.kwargs = ("network", .net n) :: others) (ho : "network" ∉ others.map (·.1)) (c : NetClass A W) (hc : classes n.cls = some c)
    (hargs : ∀ k ∈ c.args, k ∈ n.dict.map (·.1)) (address : Nat)
    (hmake : ∀ args, args.map some = c.args.map (get n.dict) → ∃ n0, c.make args address = .ok n0 ∧ n0.cls = n.cls ∧ n0.address = address ∧
      n0.weights.map (·.1) = n.weights.map (·.1)) :
    ∃ s r' n', getstate classes r = .ok s ∧ setstate classes address s = .ok r' ∧ s.initArgs.map some = c.args.map (get n.dict) ∧
      r'.op.code = r.op.code ∧ r'.op.kwargs = ("network", .net n') :: others ∧
      r'.invData.code = r.invData.code ∧ r'.invData.kwargs = [("network", .net n')] ∧ r'.inverse.code = r.inverse.code ∧ r'.name = r.name ∧
      n'.cls = n.cls ∧ n'.training = false ∧ n'.address = address ∧ (∀ k, get n'.weights k = get n.weights k) := by
  obtain ⟨args, ha, hb⟩ := initArgs_ok n.dict c.args hargs
  obtain ⟨n0, m1, m2, m3, m4⟩ := hmake args hb.symm
  have hgetn : r.op.getattr "network" = .ok (.net n) := by
    unfold Op.getattr
    rw [if_neg (by decide), hk, get_cons, if_pos rfl]
  have hfilter : r.op.kwargs.filter (fun kv => decide (kv.1 ≠ "network")) = others := by
    rw [hk, List.filter_cons]
    simp only [ne_eq, not_true_eq_false, decide_false, Bool.false_eq_true, if_false]
    rw [List.filter_eq_self]
    intro kv hkv
    have : kv.1 ≠ "network" := fun e => ho (e ▸ List.mem_map_of_mem hkv)
    simpa using this
  have hgs : getstate classes r = .ok (State.mk r.op.code others r.invData.code r.inverse.code n.weights r.name n.cls args) := by
    unfold getstate
    rw [hgetn]
    simp only [hc, ha, hfilter]
  have hload : loadStateDict n0 n.weights = .ok { n0 with weights := n0.weights.map fun kv => (kv.1, (get n.weights kv.1).getD kv.2) } := by
    unfold loadStateDict
    rw [m4, if_pos ⟨fun _ h => h, fun _ h => h⟩]
  have hex : ∃ n' : Net A W, n' = { n0 with weights := n0.weights.map fun kv => (kv.1, (get n.weights kv.1).getD kv.2), training := false } := ⟨_, rfl⟩
  obtain ⟨n', hn'⟩ := hex
  refine ⟨_, NetResult.mk ⟨r.op.code, ("network", .net n') :: others⟩ ⟨r.invData.code, [("network", .net n')]⟩ ⟨r.inverse.code, []⟩ r.name, n', hgs, ?_, hb.symm, rfl, rfl, rfl, rfl, rfl, rfl, by rw [hn']; exact m2, by rw [hn'], by rw [hn']; exact m3, ?_⟩
  · unfold setstate
    simp only [hc, m1, hload, hn']
  · intro k
    rw [hn']
    simp only
    have gen : ∀ (l : Dict W), (∀ k ∈ l.map (·.1), (get n.weights k).isSome) → get (l.map fun kv => (kv.1, (get n.weights kv.1).getD kv.2)) k = if k ∈ l.map (·.1) then get n.weights k else none := by
      intro l
      induction l with
      | nil => intro _; rfl
      | cons kv l ih =>
        intro hall
        rw [List.map_cons, get_cons, ih (fun k hk => hall k (by simp [hk]))]
        simp only
        by_cases h : kv.1 = k
        · subst h
          obtain ⟨v, hv⟩ := Option.isSome_iff_exists.1 (hall kv.1 (by simp))
          simp [hv]
        · have : k ≠ kv.1 := fun e => h e.symm
          rw [if_neg h]
          simp only [List.map_cons, List.mem_cons, this, false_or]
    rw [gen n0.weights (by intro k hk; rw [get_isSome, ← m4]; exact hk), m4]
    split
    · rfl
    · rename_i h; rw [(get_none n.weights k).2 h]

/-- **C197, errors**: a network without a member for a constructor's argument cannot be stored (KeyError), and a state whose weights are not those of the network that the class builds
cannot be loaded (RuntimeError). -/
theorem C197_errors {A W R : Type} (classes : String → Option (NetClass A W)) (r : NetResult A W R) (n : Net A W) (c : NetClass A W) (hc : classes n.cls = some c)
    (hk : get r.op.kwargs "network" = some (.net n)) :
    ((∃ k ∈ c.args, k ∉ n.dict.map (·.1)) → getstate classes r = .error .keyError) ∧
    (∀ (s : State A W R) (n0 : Net A W) (address : Nat), s.cls = n.cls → c.make s.initArgs address = .ok n0 →
      (∃ k, ¬ (k ∈ s.weights.map (·.1) ↔ k ∈ n0.weights.map (·.1))) → setstate classes address s = .error .runtimeError) := by
  constructor
  · intro h
    unfold getstate Op.getattr
    rw [if_neg (by decide), hk]
    simp only [hc, initArgs_missing n.dict c.args h]
  · intro s n0 address hs hm ⟨k, hne⟩
    unfold setstate
    simp only [hs, hc, hm]
    have : loadStateDict n0 s.weights = .error .runtimeError := by
      unfold loadStateDict
      rw [if_neg]
      rintro ⟨h1, h2⟩
      exact hne ⟨h2 k, h1 k⟩
    rw [this]

/-- A class with one constructor argument and two weights. -/
def sampleClass : NetClass Nat Nat := ⟨["size"], fun args address => .ok ⟨"Net", [("size", args.headD 0)], [("w", 0), ("b", 0)], address, true⟩⟩

def sampleClasses : String → Option (NetClass Nat Nat) := fun k => if k = "Net" then some sampleClass else none

def sampleNet : Net Nat Nat := ⟨"Net", [("size", 7)], [("w", 5), ("b", 6)], 1000, false⟩

def sampleCode : Code (KV Nat Nat) Nat := ⟨[1], ["d", "network", "chunk_size"], false, [], fun _ _ _ => .ok 1⟩

def sampleResult : NetResult Nat Nat Nat := ⟨⟨sampleCode, [("network", .net sampleNet), ("chunk_size", .other 64)]⟩, ⟨sampleCode, []⟩, ⟨sampleCode, []⟩, "PyTorchNetwork"⟩

example : ∃ s r', getstate sampleClasses sampleResult = .ok s ∧ setstate sampleClasses 2000 s = .ok r' := by
  obtain ⟨s, r', _, h1, h2, _⟩ := C197_roundtrip sampleClasses sampleResult sampleNet [("chunk_size", .other 64)] rfl (by simp) sampleClass rfl
    (by simp [sampleClass, sampleNet]) 2000 (by intro args _; exact ⟨_, rfl, rfl, rfl, rfl⟩)
  exact ⟨s, r', h1, h2⟩

/-- **C198, refuted**: the version of a stored operation is computed again when it is loaded, with the address of the new network: if the two texts do not collide it is the version it had only if the network
is at the address where the other one was. -/
theorem C198_version_refuted {A W R : Type} (H : List Nat → List Char) (bytes : Nat → List Nat) (hb : ∀ a b, (bytes a).length = (bytes b).length)
    (hbi : Function.Injective bytes) (enc : A → List Nat) (code : Code (KV A W) R) (n n' : Net A W) (others : Dict A)
    (hH : let t := fun m : Net A W => code.bytes ++ (bytes m.address ++ (others.map fun kv => enc kv.2).flatten)
      H (t n) = H (t n') → t n = t n') :
    opVersion H (KV.kind bytes enc) ⟨code, ("network", .net n) :: others.map fun kv => (kv.1, .other kv.2)⟩ =
      opVersion H (KV.kind bytes enc) ⟨code, ("network", .net n') :: others.map fun kv => (kv.1, .other kv.2)⟩ ↔ n.address = n'.address := by
  have hall : ∀ others : Dict A, hashedAll ((others.map fun kv => (kv.1, (KV.other kv.2 : KV A W))).map fun kv => KV.kind bytes enc kv.2) =
      .ok (others.map fun kv => enc kv.2).flatten := by
    intro others
    induction others with
    | nil => rfl
    | cons kv l ih =>
      rw [List.map_cons, List.map_cons, hashedAll, ih]
      rfl
  have h := hall others
  generalize (others.map fun kv => enc kv.2).flatten = bs at h hH
  have hv : ∀ m : Net A W, opVersion H (KV.kind bytes enc) (⟨code, ("network", .net m) :: others.map fun kv => (kv.1, .other kv.2)⟩ : Op (KV A W) R) =
      .ok (H (code.bytes ++ (bytes m.address ++ bs))) := by
    intro m
    unfold opVersion
    simp only [List.map_cons, hashedAll]
    rw [show hashedAll (List.map (fun kv => KV.kind bytes enc kv.2) (List.map (fun kv => (kv.1, (KV.other kv.2 : KV A W))) others)) = .ok bs from h]
    rfl
  rw [hv, hv]
  constructor
  · intro e
    simp only [Except.ok.injEq] at e
    have e := List.append_cancel_left (hH e)
    exact hbi (List.append_inj e (hb _ _)).1
  · intro e
    rw [e]

/-! ## C199, C200: learning pipelines -/

/-- **C199, streaming**: a class can be made a streaming learning pipeline exactly if it has a single feature without needs; the new class has all of its features, this one now needing the
data set, a data set, and a pipeline of all features. -/
theorem C199_streaming (fs : List Feature) (hn : (fs.map (·.name)).Nodup) :
    ((∃ out, infinitePipeline fs = .ok out) ↔ ∃ root, fs.filter (fun f => f.needs = []) = [root]) ∧
    ((¬ ∃ root, fs.filter (fun f => f.needs = []) = [root]) → infinitePipeline fs = .error .valueError) ∧
    ∀ new old, infinitePipeline fs = .ok (new, old) → ∃ root ∈ fs, root.needs = [] ∧
      new = (fs.map fun f => if f.name = root.name then ⟨f.name, ["dataset"]⟩ else f) ++ [⟨"dataset", []⟩, ⟨"pipeline", fs.map (·.name)⟩] := by
  have hcase : (∃ root, fs.filter (fun f => f.needs = []) = [root]) ∨ ¬ ∃ root, fs.filter (fun f => f.needs = []) = [root] := Classical.em _
  have herr : (¬ ∃ root, fs.filter (fun f => f.needs = []) = [root]) → infinitePipeline fs = .error .valueError := by
    intro h
    unfold infinitePipeline
    split
    · rename_i root hr; exact absurd ⟨root, hr⟩ h
    · rfl
  refine ⟨⟨?_, ?_⟩, herr, ?_⟩
  · rintro ⟨out, ho⟩
    rcases hcase with h | h
    · exact h
    · rw [herr h] at ho; cases ho
  · rintro ⟨root, hr⟩
    unfold infinitePipeline
    rw [hr]
    exact ⟨_, rfl⟩
  · intro new old ho
    rcases hcase with ⟨root, hr⟩ | h
    · have hmem : root ∈ fs.filter (fun f => f.needs = []) := by rw [hr]; simp
      rw [List.mem_filter] at hmem
      refine ⟨root, hmem.1, by simpa using hmem.2, ?_⟩
      unfold infinitePipeline at ho
      rw [hr] at ho
      simp only [Except.ok.injEq, Prod.mk.injEq] at ho
      rw [← ho.1]
      congr 1
      apply List.map_congr_left
      intro f hf
      by_cases e : f = root
      · subst e; simp
      · have : f.name ≠ root.name := fun e' => e (List.inj_on_of_nodup_map hn hf hmem.1 e')
        rw [if_neg e, if_neg this]
    · rw [herr h] at ho; cases ho

example := C199_streaming [⟨"docs", []⟩, ⟨"norm", ["docs"]⟩] (by decide)

/-- **C199, loading the network**: of a stored pipeline, the network of the first step that has one; RuntimeError if nothing is stored or no step has one. -/
theorem C199_load {V R : Type} (ops : List (Op V R)) :
    loadNetwork (none : Option (List (Op V R))) = .error .runtimeError ∧
    loadNetwork (some ops) = match ops.findSome? fun op => get op.kwargs "network" with
      | some n => .ok n
      | none => .error .runtimeError := by
  refine ⟨rfl, ?_⟩
  show firstNetwork ops = _
  induction ops with
  | nil => rfl
  | cons op ops ih =>
    rw [firstNetwork, List.findSome?_cons]
    unfold Op.getattr
    rw [if_neg (by decide)]
    cases get op.kwargs "network" with
    | none => simp only; exact ih
    | some n => rfl

/-- **C200, refuted**: making a streaming learning pipeline of a class changes the class: its root feature now needs a data set, so the same class cannot be used a second time, nor have
data given to its root. -/
theorem C200_twice_refuted (fs new old : List Feature) (h : infinitePipeline fs = .ok (new, old)) :
    (∀ f ∈ old, f.needs ≠ []) ∧ infinitePipeline old = .error .valueError := by
  unfold infinitePipeline at h
  split at h
  · rename_i root hr
    simp only [Except.ok.injEq, Prod.mk.injEq] at h
    have hall : ∀ f ∈ old, f.needs ≠ [] := by
      rw [← h.2]
      intro f hf
      obtain ⟨g, hg, rfl⟩ := List.mem_map.1 hf
      by_cases hne : g = root
      · rw [if_pos hne]; simp
      · rw [if_neg hne]
        intro hempty
        have : g ∈ fs.filter (fun f => f.needs = []) := List.mem_filter.2 ⟨hg, by simpa using hempty⟩
        rw [hr] at this
        exact hne (by simpa using this)
    refine ⟨hall, ?_⟩
    have : old.filter (fun f => f.needs = []) = [] := by
      rw [List.filter_eq_nil_iff]
      intro f hf
      simpa using hall f hf
    unfold infinitePipeline
    rw [this]
  · cases h

example : infinitePipeline [⟨"docs", []⟩, ⟨"norm", ["docs"]⟩] =
    .ok ([⟨"docs", ["dataset"]⟩, ⟨"norm", ["docs"]⟩, ⟨"dataset", []⟩, ⟨"pipeline", ["docs", "norm"]⟩], [⟨"docs", ["dataset"]⟩, ⟨"norm", ["docs"]⟩]) := by decide +kernel

end Zounds.Ops
