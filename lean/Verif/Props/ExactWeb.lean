import Verif.Props.Learn
import Verif.Props.Ingest
import Verif.Props.Datasets
import Verif.Props.Loudness
import Verif.Props.Psychoacoustics
import Verif.Props.WebApp
import Mathlib.Data.List.Induction

/-!
# Exact conditions for claims about training, ingesting, scaling and the web application (C90–C102)
-/

namespace Zounds.Learn

/-- **C90, exact**: chunking makes no difference for any non-empty input and any positive chunk size exactly when the network treats
the rows of every non-empty batch one by one. -/
theorem C90_exact {α β : Type} (net : List α → List β) :
    (∀ (x : List α), x ≠ [] → ∀ c : Nat, 0 < c → applyNetwork net x (some (c : Int)) = applyNetwork net x none) ↔
      ∀ x : List α, x ≠ [] → net x = x.flatMap fun v => net [v] := by
  constructor
  · intro h x hx
    have h1 := h x hx 1 (by decide)
    obtain ⟨ps, e1, e2, -, e4⟩ := C38_pieces net x hx 1 (by decide)
    rw [e4] at h1
    simp only [applyNetwork, Except.ok.injEq] at h1
    rw [← h1]
    have hp : ∀ ps : List (List α), (∀ p ∈ ps, p ≠ [] ∧ p.length ≤ 1) →
        (ps.map net).flatten = ps.flatten.flatMap fun v => net [v] := by
      intro ps
      induction ps with
      | nil => intro _; rfl
      | cons p ps ih =>
        intro hps
        obtain ⟨hne, hlen⟩ := hps p (by simp)
        obtain ⟨v, rfl⟩ : ∃ v, p = [v] := by
          cases p with
          | nil => exact absurd rfl hne
          | cons a as =>
            cases as with
            | nil => exact ⟨a, rfl⟩
            | cons b bs => simp at hlen
        simp only [List.map_cons, List.flatten_cons, List.flatMap_append, List.flatMap_cons, List.flatMap_nil,
          List.append_nil]
        rw [ih fun q hq => hps q (by simp [hq])]
    rw [hp ps e2, e1]
  · intro h x hx c hc
    obtain ⟨ps, e1, e2, -, e4⟩ := C38_pieces net x hx c hc
    rw [e4]
    simp only [applyNetwork, Except.ok.injEq]
    rw [h x hx, ← e1]
    have hp : ∀ ps : List (List α), (∀ p ∈ ps, p ≠ [] ∧ p.length ≤ c) →
        (ps.map net).flatten = ps.flatten.flatMap fun v => net [v] := by
      intro ps
      induction ps with
      | nil => intro _; rfl
      | cons p ps ih =>
        intro hps
        simp only [List.map_cons, List.flatten_cons, List.flatMap_append]
        rw [ih (fun q hq => hps q (by simp [hq])), h p (hps p (by simp)).1]
    exact hp ps e2

/-- **C91, one call, exact**: one call of `train` runs all remaining epochs exactly when there are at most `checkpoint_epochs` of
them. -/
theorem C91_one_call (s : Stop) (t : Trainer) (n : Nat) (hb : 0 < t.batchSize) (hle : t.currentEpoch ≤ s.total t.epochs) :
    ∃ ev t', train s t n = .ok (ev, t') ∧
      (t'.currentEpoch = s.total t.epochs ↔ s.total t.epochs ≤ t.currentEpoch + t.checkpointEpochs) := by
  obtain ⟨t', h1, h2, -⟩ := C39_train s t n hb
  exact ⟨_, t', h1, by omega⟩

/-- **C91, enough calls, exact**: a stream of data sets trains all epochs exactly when it has at least as many data sets as needed
at `checkpoint_epochs` epochs each; base and triplet trainers then have run one epoch more than asked for. -/
theorem C91_calls (s : Stop) (t : Trainer) (ns : List Nat) (hb : 0 < t.batchSize) (h0 : t.currentEpoch = 0) :
    ∃ ev t', trainMany s t ns = .ok (ev, t') ∧ t'.currentEpoch = min (ns.length * t.checkpointEpochs) (s.total t.epochs) ∧
      (t'.currentEpoch = s.total t.epochs ↔ s.total t.epochs ≤ ns.length * t.checkpointEpochs) ∧
      (t'.currentEpoch = t.epochs ∧ s.total t.epochs ≤ ns.length * t.checkpointEpochs →
        s = .atEpochs) := by
  obtain ⟨ev, t', h1, h2, -⟩ := C39_many s ns t hb (by omega)
  refine ⟨ev, t', h1, by omega, by omega, ?_⟩
  rintro ⟨e1, e2⟩
  cases s with
  | atEpochs => rfl
  | afterEpochs => simp only [Stop.total] at h2 e2; omega

example := C91_calls .atEpochs ⟨3, 2, 3, 0, []⟩ [5, 5] (by decide) rfl

/-- **C91, reports, exact**: the supervised trainer reports the two errors under their own names exactly when they are equal. -/
theorem C91_reports {E : Type} (e te : E) :
    ((supervisedReport e (some te)).trainError = some e ∧ (supervisedReport e (some te)).testError = some te) ↔ e = te := by
  obtain ⟨h1, h2⟩ := C39_errors_swapped_refuted e te
  rw [h1, h2]
  constructor
  · rintro ⟨h, -⟩; exact (Option.some.inj h).symm
  · rintro rfl; exact ⟨rfl, rfl⟩

example : ∀ x : List Nat, x ≠ [] → ∀ c : Nat, 0 < c →
    applyNetwork (fun x => x.flatMap fun v => [v, v + 1]) x (some (c : Int)) =
      applyNetwork (fun x => x.flatMap fun v => [v, v + 1]) x none :=
  (C90_exact fun x : List Nat => x.flatMap fun v => [v, v + 1]).2 (by intro x _; simp)
example : ∃ ev t', train .atEpochs ⟨3, 2, 3, 0, []⟩ 5 = .ok (ev, t') ∧ t'.currentEpoch = 3 := by
  obtain ⟨ev, t', h1, h2⟩ := C91_one_call .atEpochs ⟨3, 2, 3, 0, []⟩ 5 (by decide) (by decide)
  exact ⟨ev, t', h1, h2.2 (by decide)⟩

end Zounds.Learn

namespace Zounds.Ingest

theorem reaches_trans {cores : Nat} {k : Bool} {s t u : St} (h1 : Reaches cores k s t) (h2 : Reaches cores k t u) :
    Reaches cores k s u := by
  induction h2 with
  | refl => exact h1
  | step _ hs ih => exact .step ih hs

/-- One worker does everything and every processing raises. -/
theorem all_fail (cores : Nat) (hc : 1 ≤ cores) (k : Bool) (q : List Item) (db st sk fl : List Nat) (lost : Nat) :
    ∃ s, Reaches cores k ⟨q, [], db, st, sk, fl, lost⟩ s ∧ s.done ∧
      s.started = st ++ (q.filterMap id).filter (fun u => ! (k && db.contains u)) := by
  induction q generalizing st sk fl lost with
  | nil => exact ⟨_, .refl, ⟨rfl, rfl⟩, by simp⟩
  | cons x q ih =>
    have h1 : Step cores k ⟨x :: q, [], db, st, sk, fl, lost⟩ ⟨q, [(x, false)], db, st, sk, fl, lost⟩ :=
      Step.take (s := ⟨x :: q, [], db, st, sk, fl, lost⟩) rfl (by show 0 < cores; omega)
    cases x with
    | none =>
      have h2 : Step cores k ⟨q, [(none, false)], db, st, sk, fl, lost⟩ ⟨q, [], db, st, sk, fl, lost + 1⟩ :=
        Step.noRequest (s := ⟨q, [(none, false)], db, st, sk, fl, lost⟩) (a := []) (b := []) rfl
      obtain ⟨s, r, d, e⟩ := ih st sk fl (lost + 1)
      exact ⟨s, reaches_trans (.step (.step .refl h1) h2) r, d, by simpa using e⟩
    | some u =>
      by_cases hu : k = true ∧ u ∈ db
      · have h2 : Step cores k ⟨q, [(some u, false)], db, st, sk, fl, lost⟩ ⟨q, [], db, st, sk ++ [u], fl, lost⟩ :=
          Step.skip (s := ⟨q, [(some u, false)], db, st, sk, fl, lost⟩) (a := []) (b := []) rfl hu.1 hu.2
        obtain ⟨s, r, d, e⟩ := ih st (sk ++ [u]) fl lost
        refine ⟨s, reaches_trans (.step (.step .refl h1) h2) r, d, ?_⟩
        rw [e]
        simp [hu.1, hu.2]
      · have h2 : Step cores k ⟨q, [(some u, false)], db, st, sk, fl, lost⟩ ⟨q, [(some u, true)], db, st ++ [u], sk, fl, lost⟩ :=
          Step.start (s := ⟨q, [(some u, false)], db, st, sk, fl, lost⟩) (a := []) (b := []) rfl hu
        have h3 : Step cores k ⟨q, [(some u, true)], db, st ++ [u], sk, fl, lost⟩ ⟨q, [], db, st ++ [u], sk, fl ++ [u], lost⟩ :=
          Step.fail (s := ⟨q, [(some u, true)], db, st ++ [u], sk, fl, lost⟩) (a := []) (b := []) rfl
        obtain ⟨s, r, d, e⟩ := ih (st ++ [u]) sk (fl ++ [u]) lost
        refine ⟨s, reaches_trans (.step (.step (.step .refl h1) h2) h3) r, d, ?_⟩
        rw [e]
        have : (!(k && db.contains u)) = true := by
          cases k <;> simp at hu ⊢
          exact hu
        have e1 : List.filterMap id (some u :: q) = u :: List.filterMap id q := rfl
        rw [e1, List.filter_cons_of_pos (by exact this)]
        simp

/-- **C92, exact**: with a pool of at least one worker, no execution processes a url more than once exactly when the url does not
occur twice in the data set, or is in the database already and `skip_if_exists` is on. -/
theorem C92_exact (f : Flags) (cpu : Nat) (data : List Item) (db0 : List Nat) (u : Nat)
    (hpool : f.multiProcess = true ∨ f.multiThreaded = true) (hcpu : 1 ≤ cpu) (hcores : ∀ c, f.cores = some c → 0 ≤ c) :
    (∀ s, Ingests f cpu data db0 (.ok s) → s.started.count u ≤ 1) ↔
      data.count (some u) ≤ 1 ∨ (f.skipIfExists = true ∧ u ∈ db0) := by
  constructor
  · intro h
    by_contra hn
    obtain ⟨h1, h2⟩ := not_or.1 hn
    have hp : (f.multiProcess || f.multiThreaded) = true := by simpa using hpool
    obtain ⟨s0, hs0⟩ := C41_returns f cpu data db0 hcpu hcores
    cases hw : workers f cpu with
    | error e =>
      unfold Ingests at hs0
      rw [if_pos hp] at hs0
      simp only [hw] at hs0
      cases hs0
    | ok n =>
      have hn1 : 1 ≤ n := by
        have key : ∀ w : Int, (if w < 1 then Except.error PyErr.valueError else Except.ok w.toNat) = Except.ok n → 1 ≤ n := by
          intro w hw
          by_cases hw1 : w < 1
          · rw [if_pos hw1] at hw; cases hw
          · rw [if_neg hw1] at hw
            simp only [Except.ok.injEq] at hw
            omega
        exact key _ hw
      obtain ⟨s, hr, hd, he⟩ := all_fail n hn1 f.skipIfExists data db0 [] [] [] 0
      have hi : Ingests f cpu data db0 (.ok s) := by
        unfold Ingests
        rw [if_pos hp]
        simp only [hw]
        exact ⟨s, hr, hd, rfl⟩
      have hc := h s hi
      rw [he, List.nil_append] at hc
      have hin : (!(f.skipIfExists && db0.contains u)) = true := by
        cases hk : f.skipIfExists
        · simp
        · simp only [Bool.true_and, Bool.not_eq_true', List.contains_eq_mem, decide_eq_false_iff_not]
          intro hm; exact h2 ⟨hk, hm⟩
      have hcount : ((data.filterMap id).filter fun u => ! (f.skipIfExists && db0.contains u)).count u = data.count (some u) := by
        rw [List.count_filter (p := fun u => ! (f.skipIfExists && db0.contains u)) hin]
        clear hc he hd hr hs0 h h1 hn hi
        induction data with
        | nil => rfl
        | cons x xs ih =>
          cases x with
          | none => simpa using ih
          | some v =>
            have e1 : List.filterMap id (some v :: xs) = v :: List.filterMap id xs := rfl
            rw [e1, List.count_cons, List.count_cons, ih]
            simp
      omega
  · rintro (h | ⟨hk, hu⟩) s hs
    · exact le_trans (C41_duplicates f cpu data db0 s hpool hs u).1 h
    · rw [(C41_duplicates f cpu data db0 s hpool hs u).2.2.1 hk hu]; omega

example : ¬ ∀ s, Ingests ⟨true, false, true, some 1⟩ 4 [some 7, none, some 7] [] (.ok s) → s.started.count 7 ≤ 1 := by
  rw [C92_exact ⟨true, false, true, some 1⟩ 4 _ _ 7 (Or.inr rfl) (by decide) (by intro c hc; cases hc; decide)]
  decide

end Zounds.Ingest

namespace Zounds.Datasets

/-- **C94, exact**: what a local file may hold after any calls, interrupted anywhere: it may hold `c` exactly when `c` is a beginning of
what the remote side sent in answer to one of the calls for a url with that file name. -/
theorem C94_exact (d : Disk) (es : List (Url × Remote)) (n : List Char) (hn : n ≠ []) (hd : d n = none) (c : Bytes) :
    (∃ d', History d es d' ∧ d' n = some c) ↔ ∃ e ∈ es, fileName e.1 = n ∧ c <+: e.2.body := by
  constructor
  · rintro ⟨d', h, hc⟩
    exact C43_prefix h n hd c hc
  · rintro ⟨e, he, h1, h2⟩
    have idle : ∀ (es : List (Url × Remote)) (d : Disk), History d es d := by
      intro es
      induction es with
      | nil => intro d; exact .nil d
      | cons x xs ih => intro d; exact .cons (.died (Or.inl rfl)) (ih d)
    have hex : d.exists n = false := by
      simp [Disk.exists, hd, hn]
    induction es with
    | nil => cases he
    | cons x xs ih =>
      rcases List.mem_cons.1 he with rfl | he'
      · refine ⟨d.write n c, .cons (d' := d.write n c) (.died (Or.inr ⟨by rw [h1]; exact hex, c, h2, by rw [h1]⟩)) (idle xs _), ?_⟩
        simp [Disk.write]
      · obtain ⟨d', h3, h4⟩ := ih he'
        exact ⟨d', .cons (.died (Or.inl rfl)) h3, h4⟩

/-- **C94, complete files, exact**: every file a history of calls can leave is complete exactly when every answer to a call for it was
empty; crashes are that harmful. -/
theorem C94_crash_safe (d : Disk) (es : List (Url × Remote)) (n : List Char) (hn : n ≠ []) (hd : d n = none) (content : Bytes) :
    (∀ d', History d es d' → d' n = none ∨ d' n = some content) ↔
      ∀ e ∈ es, fileName e.1 = n → content = [] ∧ e.2.body = [] := by
  constructor
  · intro h e he hname
    have key : ∀ c, c <+: e.2.body → c = content := by
      intro c hc
      obtain ⟨d', h1, h2⟩ := (C94_exact d es n hn hd c).2 ⟨e, he, hname, hc⟩
      rcases h d' h1 with h3 | h3
      · rw [h2] at h3; cases h3
      · rw [h2] at h3; exact Option.some.inj h3
    have h0 := key [] List.nil_prefix
    exact ⟨h0.symm, by rw [h0]; exact key _ List.prefix_rfl⟩
  · intro h d' hd'
    cases hc : d' n with
    | none => exact Or.inl rfl
    | some c =>
      right
      obtain ⟨e, he, h1, h2⟩ := C43_prefix hd' n hd c hc
      obtain ⟨e1, e2⟩ := h e he h1
      rw [e2] at h2
      rw [e1, List.prefix_nil.1 h2]

example := C94_crash_safe (fun _ => none) [(⟨['/', 'a'], []⟩, .reply 200 (some 2) [[1], [2]] false)] ['a'] (by decide) rfl [1]

example : ∃ d', History (fun _ => none) [(⟨['/', 'a'], []⟩, .reply 200 (some 2) [[1], [2]] false)] d' ∧ d' ['a'] = some [1] :=
  (C94_exact _ _ ['a'] (by decide) rfl [1]).2 ⟨_, List.mem_singleton.2 rfl, by decide, ⟨[2], rfl⟩⟩

end Zounds.Datasets

namespace Zounds.Props.Loudness
open Zounds Zounds.Loudness

/-- **C96, exact**: `unit_scale` of a non-empty vector gives numbers, all in `[0, 1]`, exactly when the vector is not constant. -/
theorem C96_exact (x : List ℝ) (hx : x ≠ []) :
    (∃ ys : List ℝ, unitScale x = .ok (ys.map some) ∧ ys.length = x.length ∧ ∀ y ∈ ys, 0 ≤ y ∧ y ≤ 1) ↔
      ∃ a ∈ x, ∃ b ∈ x, a ≠ b := by
  constructor
  · rintro ⟨ys, h1, h2, -⟩
    by_contra hc
    push Not at hc
    obtain ⟨c, cs, rfl⟩ : ∃ c cs, x = c :: cs := by
      cases x with
      | nil => exact absurd rfl hx
      | cons c cs => exact ⟨c, cs, rfl⟩
    have hrep : c :: cs = List.replicate (cs.length + 1) c := by
      rw [List.eq_replicate_iff]
      exact ⟨by simp, fun b hb => hc b hb c (by simp)⟩
    rw [hrep, C46_unit_scale_constant_fails] at h1
    cases ys with
    | nil => simp at h2
    | cons y ys => simp [List.replicate_succ] at h1
  · rintro ⟨a, ha, b, hb, hab⟩
    obtain ⟨f, h1, -, h3, -⟩ := C46_unit_scale x a b ha hb hab
    refine ⟨x.map f, by rw [h1, List.map_map]; rfl, by simp, ?_⟩
    intro y hy
    obtain ⟨v, hv, rfl⟩ := List.mem_map.1 hy
    exact h3 v hv

example := C96_exact [1, 2] (by simp)

/-- **C99, exact**: for every signal in `[-1, 1]`, with least sample `m`, what `inverse_categorical` makes of its categories: in the
mu-law domain, half the distance of the sample from `m`, less a half, rounded down to a multiple of 1/255. -/
theorem C99_exact (junk : List ℝ) (x : List ℝ) (hx : ∀ v ∈ x, |v| ≤ 1) (m : ℝ) (hm : m ∈ x) (hmin : ∀ v ∈ x, m ≤ v) :
    roundTrip junk false x = .ok (x.map fun v =>
      inverseMuLaw 255 ((⌊(muLaw 255 v - muLaw 255 m) / 2 * 255⌋₊ : ℝ) / 255 - 1 / 2)) := by
  have hne : x ≠ [] := List.ne_nil_of_mem hm
  have hmono := C46_mu_law_strict_mono 255 (by norm_num)
  obtain ⟨mn, h1, h2, h3⟩ := vmin_spec (x.map (muLaw 255)) (by simpa using hne)
  have hmn : mn = muLaw 255 m := by
    have a := h3 _ (List.mem_map.2 ⟨m, hm, rfl⟩)
    obtain ⟨v, hv, e⟩ := List.mem_map.1 h2
    have := hmono.le_iff_le.2 (hmin v hv)
    rw [e] at this
    exact le_antisymm a this
  let q : ℝ → Nat := fun v => ⌊(muLaw 255 v - muLaw 255 m) * (1 / 2) * 255⌋₊
  have hrange : ∀ v ∈ x, -1 ≤ muLaw 255 v ∧ muLaw 255 v ≤ 1 := fun v hv =>
    abs_le.1 ((C46_mu_law_range 255 v (by norm_num)).2 (hx v hv))
  have hq : ∀ v ∈ x, q v ≤ 255 := by
    intro v hv
    have r1 := hrange v hv
    have r2 := hrange m hm
    have : ⌊(muLaw 255 v - muLaw 255 m) * (1 / 2) * 255⌋₊ ≤ ⌊(255 : ℝ)⌋₊ := Nat.floor_le_floor (by linarith)
    have e : ⌊(255 : ℝ)⌋₊ = 255 := by
      rw [show (255 : ℝ) = ((255 : ℕ) : ℝ) by norm_num, Nat.floor_natCast]
    rwa [e] at this
  have hcats : categories junk 255 false x = .ok (x.map q) := by
    unfold categories
    simp only [Bool.false_eq_true, if_false]
    rw [h1]
    simp only [List.map_map, hmn]
    congr 1
    apply List.map_congr_left
    intro v hv
    have := hq v hv
    simp only [Function.comp, toUint8]
    exact Nat.mod_eq_of_lt (by show q v < 256; omega)
  have hcat : categorical junk 255 false x =
      .ok ((x.map q).map fun k => (List.range (255 + 1)).map fun j => if j = k then (1 : ℝ) else 0) := by
    unfold categorical
    rw [hcats]
    exact mapM_oneHot 255 _ (by
      intro k hk
      obtain ⟨v, hv, rfl⟩ := List.mem_map.1 hk
      exact hq v hv)
  have hinv : ((x.map q).map fun k => (List.range (255 + 1)).map fun j => if j = k then (1 : ℝ) else 0).mapM
      (inverseCategorical 255) = .ok (x.map fun v => inverseMuLaw 255 ((q v : ℝ) / 255 - 1 / 2)) := by
    rw [List.map_map]
    have : ∀ l : List ℝ, (∀ v ∈ l, v ∈ x) →
        (l.map ((fun k => (List.range (255 + 1)).map fun j => if j = k then (1 : ℝ) else 0) ∘ q)).mapM
          (inverseCategorical 255) = .ok (l.map fun v => inverseMuLaw 255 ((q v : ℝ) / 255 - 1 / 2)) := by
      intro l
      induction l with
      | nil => intro _; rfl
      | cons a as ih =>
        intro hl
        rw [List.map_cons, List.mapM_cons, ih fun v hv => hl v (by simp [hv])]
        have : inverseCategorical 255 (((fun k => (List.range (255 + 1)).map fun j => if j = k then (1 : ℝ) else 0) ∘ q) a) =
            .ok (inverseMuLaw 255 ((q a : ℝ) / 255 - 1 / 2)) := by
          unfold inverseCategorical
          simp only [Function.comp]
          rw [argmax_oneHot 255 (q a) (hq a (hl a (by simp)))]
          norm_num
        rw [this]
        rfl
    exact this x fun v hv => hv
  unfold roundTrip
  rw [hcat]
  refine hinv.trans ?_
  congr 1
  apply List.map_congr_left
  intro v _
  have : (muLaw 255 v - muLaw 255 m) * (1 / 2) * 255 = (muLaw 255 v - muLaw 255 m) / 2 * 255 := by ring
  simp only [q, this]

/-- **C99, it does not come back**: in a signal in `[-1, 1]` that reaches `-1`, no sample whose mu-law value exceeds 4/255 comes back
within 2/255, the width of a category. -/
theorem C99_not_back (junk : List ℝ) (x : List ℝ) (hx : ∀ v ∈ x, |v| ≤ 1) (hm : (-1) ∈ x) :
    ∃ y : List ℝ, roundTrip junk false x = .ok y ∧ y.length = x.length ∧
      ∀ i (h : i < x.length) (h' : i < y.length), 4 / 255 < muLaw 255 x[i] →
        2 / 255 < |muLaw 255 x[i] - muLaw 255 y[i]| := by
  obtain ⟨y, h1, h2, h3⟩ := C49_round_trip_partial junk x hx hm
  refine ⟨y, h1, h2, ?_⟩
  intro i hi hi' hbig
  obtain ⟨a, b⟩ := h3 i hi hi'
  rw [abs_of_nonneg (by linarith)]
  linarith

example (junk : List ℝ) := C99_not_back junk [-1, 0] (by
  intro v hv
  simp only [List.mem_cons, List.not_mem_nil, or_false] at hv
  rcases hv with rfl | rfl <;> norm_num) (by simp)

example : ∃ a ∈ [(1 : ℝ), 2], ∃ b ∈ [(1 : ℝ), 2], a ≠ b := ⟨1, by simp, 2, by simp, by norm_num⟩
example (junk : List ℝ) : ∃ y, roundTrip junk false [0, 1] = .ok y := ⟨_, C99_exact junk [0, 1] (by
  intro v hv
  simp only [List.mem_cons, List.not_mem_nil, or_false] at hv
  rcases hv with rfl | rfl <;> norm_num) 0 (by simp) (by
  intro v hv
  simp only [List.mem_cons, List.not_mem_nil, or_false] at hv
  rcases hv with rfl | rfl <;> norm_num)⟩

end Zounds.Props.Loudness

namespace Zounds.Props.Psycho
open Zounds Zounds.Freq Zounds.Psycho

/-- **C98, exact**: the bands of a Bark or Mel scale on a band that starts at 0 Hz or above stay inside it exactly when there are
none. -/
theorem C98_exact (b : Band ℝ) (n : Nat) (h0 : 0 ≤ b.start) (hb : b.start < b.stop)
    (mk : Band ℝ → Nat → Scale ℝ) (hmk : mk = Scale.bark ∨ mk = Scale.mel) :
    ∃ bs, (mk b n).bands realExt = .ok bs ∧ bs.length = n ∧
      ((∀ x ∈ bs, b.start ≤ x.start ∧ x.stop ≤ b.stop) ↔ n = 0) := by
  have : ∃ bs, (mk b n).bands realExt = .ok bs ∧ Perceptual b n bs := by
    rcases hmk with rfl | rfl
    · exact C48_bark_scale b n hb (by linarith)
    · exact C48_mel_scale b n hb (by linarith)
  obtain ⟨bs, h1, h2⟩ := this
  refine ⟨bs, h1, h2.count, ?_⟩
  constructor
  · intro h
    by_contra hn
    have hlen : 0 < bs.length := by rw [h2.count]; omega
    have hmem := List.getElem_mem hlen
    have e1 := h2.first hlen
    have e2 := h2.width _ hmem
    have e3 := (h _ hmem).1
    rw [e1] at e2
    simp only [Band.center, Band.bandwidth] at e1 e2
    linarith
  · rintro rfl
    have := h2.count
    rw [List.length_eq_zero_iff] at this
    subst this
    simp

example : ∃ bs, (Scale.bark (⟨0, 100⟩ : Band ℝ) 3).bands realExt = .ok bs ∧ ¬ ∀ x ∈ bs, 0 ≤ x.start ∧ x.stop ≤ 100 := by
  obtain ⟨bs, h1, -, h3⟩ := C98_exact ⟨0, 100⟩ 3 le_rfl (by norm_num) Scale.bark (Or.inl rfl)
  exact ⟨bs, h1, fun h => absurd (h3.1 h) (by decide)⟩

end Zounds.Props.Psycho

namespace Zounds.Web
variable {R : Type}

/-- **C97, exact**: a request without the cookie is refused (GET and HEAD redirected to the login page, others forbidden) exactly when
the secret is not empty, the pattern of the route that handles it does not contain the letters `login` and the method is
not PATCH; in all other cases the handler itself answers. -/
theorem C97_exact (app : App) (custom base : List (Route R)) (req : Request) (r : Route R)
    (hr : routeFor (custom ++ base) req.path = some r) (ha : Anonymous app req) :
    ((∃ s, app.secret = some s ∧ s ≠ []) ∧ ¬ (loginText <:+: r.pattern) ∧ req.method ≠ .patch →
      dispatch (makeApp app custom base) req =
        if req.method = .get ∨ req.method = .head then .redirectToLogin else .forbidden) ∧
    (¬ ((∃ s, app.secret = some s ∧ s ≠ []) ∧ ¬ (loginText <:+: r.pattern) ∧ req.method ≠ .patch) →
      dispatch (makeApp app custom base) req = r.handler req.method req) := by
  constructor
  · rintro ⟨⟨s, hs, hne⟩, hp, hm⟩
    exact C47_anonymous app s hs hne custom base req r hr hp ha hm
  · intro h
    by_cases hsec : ∃ s, app.secret = some s ∧ s ≠ []
    · obtain ⟨s, hs, hne⟩ := hsec
      by_cases hp : loginText <:+: r.pattern
      · exact C47_login_substring_refuted app custom base req r s hs hne hr hp
      · by_cases hm : req.method = .patch
        · rw [C47_patch_refuted app custom base req r s hs hne hr hm, hm]
        · exact absurd ⟨⟨s, hs, hne⟩, hp, hm⟩ h
    · have e : makeApp app custom base = custom ++ base := by
        cases hs : app.secret with
        | none => exact C47_no_secret app hs custom base
        | some s =>
          have : s = [] := by
            by_contra hne
            exact hsec ⟨s, hs, hne⟩
          simp [makeApp, hs, this]
      rw [e, dispatch_eq, hr]

example (f : Request → Nat) := C97_exact ⟨some ['x'], 7⟩ [⟨['/', 'a'], fun p => decide (p = ['/', 'a']), fun _ req => .ran (f req) none⟩] [] ⟨.get, ['/', 'a'], none, none⟩ _ rfl (by simp [Anonymous])

/-- **C101, exact**: the url of a document's feature leads the feature route to that document and feature exactly when the base path is
`/zounds/`. -/
theorem C101_base_path (base : List Char) (id : List UInt8) (feature : List Char) (hid : id ≠ []) (hf : feature ≠ [])
    (hslash : feature.getLast? ≠ some '/') :
    featureMatch (featurePath base id feature) = some (quote id, feature) ↔ base = zoundsText := by
  constructor
  · intro h
    unfold featureMatch at h
    split at h
    · cases h
    · rename_i rest hrest
      have hpre : ∀ p s r : List Char, dropPrefix? p s = some r → s = p ++ r := by
        intro p
        induction p with
        | nil => intro s r h; simp [dropPrefix?] at h; simp [h]
        | cons a as ih =>
          intro s r h
          cases s with
          | nil => simp [dropPrefix?] at h
          | cons c cs =>
            simp only [dropPrefix?] at h
            split at h
            · rename_i hac
              rw [hac, List.cons_append, ← ih _ _ h]
            · cases h
      have hp := hpre _ _ _ hrest
      have htg : ∀ (s acc a b : List Char), twoGroups acc s = some (a, b) →
          ∃ cs, acc ++ s = a ++ '/' :: cs ∧ b = stripSlash cs := by
        intro s
        induction s with
        | nil => intro acc a b h; simp [twoGroups] at h
        | cons c cs ih =>
          intro acc a b h
          simp only [twoGroups] at h
          split at h
          · rename_i hc
            cases h
            exact ⟨cs, by rw [hc.2.1], rfl⟩
          · obtain ⟨cs', h1, h2⟩ := ih _ _ _ h
            exact ⟨cs', by rw [← h1]; simp, h2⟩
      obtain ⟨cs, h1, h2⟩ := htg _ _ _ _ h
      simp only [List.nil_append] at h1
      have hcs : cs = feature := by
        unfold stripSlash at h2
        split at h2
        · rename_i hc
          exfalso
          have hlast : (featurePath base id feature).getLast? = some '/' := by
            rw [hp, h1]
            have hne : cs ≠ [] := by rintro rfl; simp at hc
            rw [List.getLast?_append, List.getLast?_append, List.getLast?_cons_of_ne_nil hne, hc.1]
            rfl
          unfold featurePath at hlast
          rw [List.getLast?_append, List.getLast?_cons_of_ne_nil hf] at hlast
          cases hl : feature.getLast? with
          | none => exact hf (List.getLast?_eq_none_iff.1 hl)
          | some c =>
            rw [hl] at hlast
            simp at hlast
            exact hslash (by rw [hl, hlast])
        · exact h2.symm
      rw [h1, hcs, featurePath, List.append_assoc] at hp
      exact List.append_cancel_right hp
  · rintro rfl
    exact (C51_roundtrip id feature hid hf hslash).1

theorem collect_full {V : Type} (frequency n : Nat) (hn : 0 < n) (l : List V) (b : Nat) (v : V) :
    collect frequency n (l.drop (l.length - (n + 1))) b (some v) =
      if b % frequency = 0 then (l ++ [v]).drop ((l ++ [v]).length - (n + 1)) else l.drop (l.length - (n + 1)) := by
  unfold collect
  by_cases hb : b % frequency = 0
  · have h0 : ¬ n = 0 := by omega
    simp only [hb, ne_eq, not_true_eq_false, if_false, h0, if_true, List.drop_drop, List.length_drop, List.length_append,
      List.length_singleton]
    rw [List.drop_append_of_le_length (by omega)]
    congr 2
    omega
  · simp [hb]

/-- **C102, exact**: when every sampled batch reports a value, the history of a key is the last `n + 1` values reported (all of them
when there are fewer), for every positive number `n` of points to keep; and all of them for `n = 0`. -/
theorem C102_exact {V : Type} (frequency n : Nat) (cs : List (Nat × V)) :
    collectAll frequency n [] (cs.map fun c => (c.1, some c.2)) =
      (reported frequency (cs.map fun c => (c.1, some c.2))).drop
        (if n = 0 then 0 else (reported frequency (cs.map fun c => (c.1, some c.2))).length - (n + 1)) := by
  have rep_snoc : ∀ (cs : List (Nat × Option V)) (c : Nat × Option V), reported frequency (cs ++ [c]) =
      reported frequency cs ++ (if c.1 % frequency = 0 then c.2.toList else []) := by
    intro cs c
    induction cs with
    | nil => obtain ⟨b, v⟩ := c; simp [reported]
    | cons d ds ih => obtain ⟨b, v⟩ := d; simp [reported, ih]
  have col_snoc : ∀ (cs : List (Nat × Option V)) (h : List V) (c : Nat × Option V),
      collectAll frequency n h (cs ++ [c]) = collect frequency n (collectAll frequency n h cs) c.1 c.2 := by
    intro cs
    induction cs with
    | nil => intro h c; obtain ⟨b, v⟩ := c; rfl
    | cons d ds ih => intro h c; obtain ⟨b, v⟩ := d; simp only [List.cons_append, collectAll]; exact ih _ _
  induction cs using List.reverseRecOn with
  | nil => simp [collectAll, reported]
  | append_singleton cs c ih =>
    rw [List.map_append, List.map_singleton, col_snoc, rep_snoc, ih]
    by_cases hn : n = 0
    · subst hn
      simp only [if_true, List.drop_zero]
      unfold collect
      by_cases hb : c.1 % frequency = 0 <;> simp [hb]
    · simp only [hn, if_false]
      rw [collect_full frequency n (by omega)]
      by_cases hb : c.1 % frequency = 0 <;> simp [hb]

example : collectAll 1 2 [] [(0, some 10), (1, some 11), (2, some 12), (3, some 13)] = [11, 12, 13] := by
  have := C102_exact 1 2 [(0, 10), (1, 11), (2, 12), (3, 13)]
  simpa [reported] using this
example : featureMatch (featurePath ['/', 'x', '/'] [97] ['b']) ≠ some (quote [97], ['b']) := by
  rw [Ne, C101_base_path _ _ _ (by decide) (by decide) (by decide)]
  decide

end Zounds.Web
