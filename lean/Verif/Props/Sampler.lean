import Verif.Model.Sampler
import Verif.Props.Reservoir
import Verif.Props.Shuffled
import Mathlib.Data.List.GetD

/-!
# C374, C375: the samples of a streaming pipeline, without and with threads
-/

namespace Zounds.Sampler
open Zounds Zounds.Reservoir

/-! ## C374: one document after the other -/

/-- What numpy draws for a document of `size` rows: as many rows of it as it contributes, and as many slots. -/
def Drawn (n total size : Nat) (d : Draw) : Prop :=
  d.picks.length = contribution n size total ∧ (∀ p ∈ d.picks, p < size) ∧ d.slots.length = d.picks.length ∧ ∀ k ∈ d.slots, 0 ≤ k ∧ k < (n : Int)

/-- The draws of passes over documents. -/
def AllDrawn {α : Type} (n : Nat) (docs : List (List α)) (draws : List (List Draw)) : Prop :=
  ∀ ds ∈ draws, ds.length = docs.length ∧ ∀ p ∈ docs.zip ds, Drawn n (docs.map List.length).sum p.1.length p.2

/-- The array yielded is of rows of the documents. -/
def Samples {α : Type} (n : Nat) (docs : List (List α)) (out : List α) : Prop :=
  1 ≤ out.length ∧ out.length ≤ n ∧ ∀ x ∈ out, ∃ doc ∈ docs, x ∈ doc

/-- The reservoir holds rows of documents. -/
structure Good {α : Type} (P : α → Prop) (r : Res α) : Prop where
  ok : ResOk r
  rows : ∀ a, r.arr = some a → ∀ k : Nat, (k : Int) ∈ r.indices → ∀ x, a[k]? = some x → P x
  none : r.arr = none → r.indices = []

theorem rowsAt_mem {α : Type} (a : List α) : ∀ (ks : List Nat), ∀ x ∈ rowsAt a ks, ∃ k ∈ ks, a[k]? = some x
  | [], x, h => by simp [rowsAt] at h
  | k :: ks, x, h => by
    unfold rowsAt at h
    split at h
    · rename_i y hy
      rcases List.mem_cons.1 h with rfl | h
      · exact ⟨k, by simp, hy⟩
      · obtain ⟨j, hj, e⟩ := rowsAt_mem a ks x h
        exact ⟨j, by simp [hj], e⟩
    · obtain ⟨j, hj, e⟩ := rowsAt_mem a ks x h
      exact ⟨j, by simp [hj], e⟩

theorem rowsAt_length {α : Type} (a : List α) : ∀ (ks : List Nat), (∀ k ∈ ks, k < a.length) → (rowsAt a ks).length = ks.length
  | [], _ => rfl
  | k :: ks, h => by
    have hk := h k (by simp)
    simp [rowsAt, List.getElem?_eq_getElem hk, rowsAt_length a ks fun j hj => h j (by simp [hj])]

/-- Where a slot is written, there is one of the rows written; elsewhere nothing changes. -/
theorem assign_at {α : Type} (k : Nat) : ∀ (is : List Nat) (xs : List α) (arr : List α), is.length = xs.length →
    (k ∈ is → ∀ x, (assign arr is xs)[k]? = some x → x ∈ xs) ∧ (k ∉ is → (assign arr is xs)[k]? = arr[k]?) := by
  intro is
  induction is with
  | nil => intro xs arr h; simp [assign]
  | cons i is ih =>
    intro xs arr h
    cases xs with
    | nil => simp at h
    | cons y ys =>
      simp only [assign]
      obtain ⟨h1, h2⟩ := ih ys (arr.set i y) (by simpa using h)
      constructor
      · intro hk x hx
        by_cases hm : k ∈ is
        · exact List.mem_cons_of_mem _ (h1 hm x hx)
        · rcases List.mem_cons.1 hk with rfl | hk
          · rw [h2 hm] at hx
            rw [List.getElem?_set] at hx
            simp only [if_true] at hx
            split at hx
            · simp at hx; simp [hx]
            · simp at hx
          · exact absurd hk hm
      · intro hk
        rw [h2 (fun hm => hk (List.mem_cons_of_mem _ hm)), List.getElem?_set_ne (fun e => hk (by simp [e]))]

theorem update_good {α : Type} (P : α → Prop) (z : α) (total : Nat) (ht : total ≠ 0) (r : Res α) (hr : Good P r) (doc : List α) (hdoc : doc ≠ []) (hP : ∀ x ∈ doc, P x)
    (d : Draw) (hd : Drawn r.nsamples total doc.length d) :
    ∃ r', update z total r doc d = (r', .ok ()) ∧ Good P r' ∧ r'.nsamples = r.nsamples ∧ (∀ k ∈ r.indices, k ∈ r'.indices) ∧ r'.indices ≠ [] ∧
      r'.arr.isSome = true := by
  obtain ⟨h1, h2, h3, h4⟩ := hd
  have hl : (rowsAt doc d.picks).length = d.picks.length := rowsAt_length _ _ h2
  obtain ⟨g1, g2, g3, -⟩ := C27_add z r hr.ok (rowsAt doc d.picks) d.slots h4
  obtain ⟨g4, g5, g6⟩ := g3 (by rw [hl, h3])
  refine ⟨(r.add z (rowsAt doc d.picks) d.slots).1, ?_, ⟨g1, ?_, ?_⟩, g2, ?_, ?_, ?_⟩
  · unfold update
    rw [if_neg ht, if_neg (by simpa using hdoc), ← g4]
  · intro a ha k hk x hx
    rw [g5] at ha
    cases ha
    obtain ⟨a1, a2⟩ := assign_at k (d.slots.map Int.toNat) (rowsAt doc d.picks) (r.arr.getD (List.replicate r.nsamples z)) (by simp [hl, h3])
    by_cases hm : (k : Int) ∈ d.slots
    · have := a1 (List.mem_map.2 ⟨k, hm, by simp⟩) x hx
      obtain ⟨j, -, hj⟩ := rowsAt_mem _ _ _ this
      exact hP x (List.mem_of_getElem? hj)
    · have hnot : k ∉ d.slots.map Int.toNat := by
        intro hc
        obtain ⟨i, hi, e⟩ := List.mem_map.1 hc
        have := (h4 i hi).1
        exact hm (by rw [← e, Int.toNat_of_nonneg this]; exact hi)
      rw [a2 hnot] at hx
      have hk' : (k : Int) ∈ r.indices := by
        rcases (g6 k).1 hk with h | h
        · exact h
        · exact absurd h hm
      cases hra : r.arr with
      | none => rw [hr.none hra] at hk'; simp at hk'
      | some a0 =>
        rw [hra] at hx
        exact hr.rows a0 hra k hk' x hx
  · intro hc
    rw [g5] at hc
    cases hc
  · intro k hk
    exact (g6 k).2 (Or.inl hk)
  · have hne : d.slots ≠ [] := by
      intro hc
      rw [hc] at h3
      have : 1 ≤ contribution r.nsamples doc.length total := by unfold contribution; omega
      simp at h3
      omega
    obtain ⟨k, hk⟩ := List.exists_mem_of_ne_nil _ hne
    intro hc
    have := (g6 k).2 (Or.inr hk)
    rw [hc] at this
    simp at this
  · rw [g5]; rfl

theorem pass_good {α : Type} (P : α → Prop) (z : α) (total : Nat) (ht : total ≠ 0) : ∀ (l : List (List α × Draw)) (r : Res α), Good P r →
    (∀ p ∈ l, p.1 ≠ [] ∧ (∀ x ∈ p.1, P x) ∧ Drawn r.nsamples total p.1.length p.2) →
    ∃ r', onePass z total r l = (r', .ok ()) ∧ Good P r' ∧ r'.nsamples = r.nsamples ∧ (∀ k ∈ r.indices, k ∈ r'.indices) ∧
      (l ≠ [] → r'.indices ≠ [] ∧ r'.arr.isSome = true)
  | [], r, hr, _ => ⟨r, rfl, hr, rfl, fun _ h => h, fun h => absurd rfl h⟩
  | (doc, d) :: rest, r, hr, h => by
    obtain ⟨h1, h2, h3⟩ := h (doc, d) (by simp)
    obtain ⟨r1, e1, e2, e3, e4, e5, e6⟩ := update_good P z total ht r hr doc h1 h2 d h3
    obtain ⟨r2, f1, f2, f3, f4, f5⟩ := pass_good P z total ht rest r1 e2 (by
      intro p hp
      rw [e3]
      exact h p (by simp [hp]))
    refine ⟨r2, ?_, f2, f3.trans e3, fun k hk => f4 k (e4 k hk), ?_⟩
    · unfold onePass
      rw [e1]
      exact f1
    · intro _
      cases rest with
      | nil =>
        unfold onePass at f1
        cases f1
        exact ⟨e5, e6⟩
      | cons q rest => exact f5 (by simp)

theorem get_good {α : Type} (P : α → Prop) (r : Res α) (hr : Good P r) (h : r.arr.isSome = true) :
    ∃ out, r.get = .ok out ∧ out.length = r.indices.length ∧ ∀ x ∈ out, P x := by
  obtain ⟨a, ha⟩ := Option.isSome_iff_exists.1 h
  obtain ⟨ks, out, g1, g2, g3, g4⟩ := C27_get r hr.ok a ha
  refine ⟨out, g1, ?_, ?_⟩
  · have e : out.length = ks.length := by simpa using congrArg List.length g4
    rw [e]
    have hp : (ks.map (fun (k : Nat) => (k : Int))).Perm r.indices := by
      rw [List.perm_ext_iff_of_nodup (List.Nodup.map_on (fun a _ b _ h => by omega) (g2.imp fun h => Nat.ne_of_lt h)) hr.ok.nodup]
      intro k
      rw [List.mem_map]
      constructor
      · rintro ⟨j, hj, rfl⟩
        exact (g3 j).1 hj
      · intro hk
        have := (hr.ok.range k hk).1
        refine ⟨k.toNat, (g3 _).2 ?_, by omega⟩
        rw [Int.toNat_of_nonneg this]
        exact hk
    rw [← hp.length_eq]
    simp
  · intro x hx
    have : some x ∈ out.map some := List.mem_map_of_mem hx
    rw [g4, List.mem_map] at this
    obtain ⟨k, hk, e⟩ := this
    exact hr.rows a ha k ((g3 k).1 hk) x e

theorem le_sum_of_mem' : ∀ (l : List Nat) (x : Nat), x ∈ l → x ≤ l.sum
  | a :: l, x, h => by
    rcases List.mem_cons.1 h with rfl | h
    · simp
    · have := le_sum_of_mem' l x h
      simp only [List.sum_cons]
      omega

theorem passes_good {α : Type} (z : α) (docs : List (List α)) (hne : docs ≠ []) (hdocs : ∀ d ∈ docs, d ≠ []) : ∀ (draws : List (List Draw)) (r : Res α),
    Good (fun x => ∃ doc ∈ docs, x ∈ doc) r → AllDrawn r.nsamples docs draws →
    (passes z docs r draws).2 = none ∧ (passes z docs r draws).1.length = draws.length ∧
      (∀ out ∈ (passes z docs r draws).1, Samples r.nsamples docs out ∧ r.indices.length ≤ out.length) ∧
      ((passes z docs r draws).1.map List.length).Pairwise (· ≤ ·)
  | [], r, _, _ => by simp [passes]
  | ds :: rest, r, hr, hd => by
    obtain ⟨hlen, hdr⟩ := hd ds (by simp)
    have htot : (docs.map List.length).sum ≠ 0 := by
      obtain ⟨d, hm⟩ := List.exists_mem_of_ne_nil _ hne
      have h1 := le_sum_of_mem' (docs.map List.length) d.length (List.mem_map_of_mem hm)
      have h2 := List.length_pos_of_ne_nil (hdocs d hm)
      omega
    obtain ⟨r1, e1, e2, e3, e4, e5⟩ := pass_good (fun x => ∃ doc ∈ docs, x ∈ doc) z _ htot (docs.zip ds) r hr (by
      intro p hp
      have hm := (List.of_mem_zip hp).1
      exact ⟨hdocs _ hm, fun x hx => ⟨_, hm, hx⟩, hdr p hp⟩)
    have hz : docs.zip ds ≠ [] := by
      intro hc
      have := congrArg List.length hc
      simp only [List.length_zip, List.length_nil, hlen, Nat.min_self] at this
      exact hne (List.length_eq_zero_iff.1 this)
    obtain ⟨e5, e6⟩ := e5 hz
    obtain ⟨out, f1, f2, f3⟩ := get_good _ r1 e2 e6
    obtain ⟨g1, g2, g3, g4⟩ := passes_good z docs hne hdocs rest r1 e2 (by
      rw [e3]
      exact fun d h => hd d (by simp [h]))
    have hp : passes z docs r (ds :: rest) = (out :: (passes z docs r1 rest).1, (passes z docs r1 rest).2) := by
      conv_lhs => unfold passes
      simp only [e1, f1]
    rw [hp]
    have hmono : r.indices.length ≤ r1.indices.length :=
      (List.subperm_of_subset hr.ok.nodup e4).length_le
    have hout : Samples r.nsamples docs out := by
      refine ⟨?_, ?_, f3⟩
      · rw [f2]
        exact List.length_pos_of_ne_nil e5
      · rw [f2, ← e3]
        exact C27_len_le_capacity r1 e2.ok
    refine ⟨g1, by simp [g2], ?_, ?_⟩
    · intro o ho
      rcases List.mem_cons.1 ho with rfl | ho
      · exact ⟨hout, by omega⟩
      · obtain ⟨a1, a2⟩ := g3 o ho
        rw [e3] at a1
        exact ⟨a1, by omega⟩
    · simp only [List.map_cons, List.pairwise_cons]
      refine ⟨?_, g4⟩
      intro m hm
      obtain ⟨o, ho, rfl⟩ := List.mem_map.1 hm
      rw [f2]
      exact (g3 o ho).2

/-- **C374**: without threads, over documents which all have rows, the sampler never stops: every pass yields an array of at least one and at most `nsamples` rows, all rows of the
documents, and never fewer than the pass before. -/
theorem C374_passes {α : Type} (z : α) (n : Nat) (docs : List (List α)) (hne : docs ≠ []) (hdocs : ∀ d ∈ docs, d ≠ []) (draws : List (List Draw))
    (hd : AllDrawn n docs draws) :
    ∃ outs, passes z docs ⟨n, none, []⟩ draws = (outs, none) ∧ outs.length = draws.length ∧ (∀ out ∈ outs, Samples n docs out) ∧
      (outs.map List.length).Pairwise (· ≤ ·) := by
  obtain ⟨h1, h2, h3, h4⟩ := passes_good z docs hne hdocs draws ⟨n, none, []⟩ ⟨⟨by simp, by simp, by simp⟩, by simp, by simp⟩ hd
  exact ⟨_, by rw [← h1], h2, fun o ho => (h3 o ho).1, h4⟩

/-- Draws over two documents of two rows and one. -/
theorem two_drawn : AllDrawn 3 [[10, 20], [30]] [[⟨[1, 1], [0, 2]⟩, ⟨[0], [2]⟩]] := by
  intro ds hds
  simp only [List.mem_singleton] at hds
  subst hds
  refine ⟨rfl, ?_⟩
  intro p hp
  simp only [List.zip_cons_cons, List.zip_nil_right, List.mem_cons, List.not_mem_nil, or_false] at hp
  rcases hp with rfl | rfl
  · exact ⟨by decide, by decide, rfl, by decide⟩
  · exact ⟨by decide, by decide, rfl, by decide⟩

example := C374_passes 0 3 [[10, 20], [30]] (by decide) (by decide) _ two_drawn
example : passes 0 [[10, 20], [30]] ⟨3, none, []⟩ [[⟨[1, 1], [0, 2]⟩, ⟨[0], [2]⟩]] = ([[20, 30]], none) := by decide +kernel

/-- Refuted: that a document without rows does no harm: if there is one among documents with rows, the first pass that comes to it is a ValueError and nothing is ever yielded. -/
theorem C374_empty_refuted {α : Type} (z : α) (n : Nat) (pre post : List (List α)) (hpre : ∀ d ∈ pre, d ≠ []) (hsome : ∃ d ∈ pre ++ post, d ≠ []) (ds : List Draw) (rest : List (List Draw))
    (hd : AllDrawn n (pre ++ [] :: post) [ds]) : passes z (pre ++ [] :: post) ⟨n, none, []⟩ (ds :: rest) = ([], some .valueError) := by
  obtain ⟨hlen, hdr⟩ := hd ds (by simp)
  obtain ⟨total, hT⟩ : ∃ total, total = ((pre ++ [] :: post).map List.length).sum := ⟨_, rfl⟩
  rw [← hT] at hdr
  have htot : total ≠ 0 := by
    obtain ⟨d, hm, hne⟩ := hsome
    have hm' : d ∈ pre ++ [] :: post := by
      simp only [List.mem_append, List.mem_cons] at hm ⊢
      tauto
    have h1 := le_sum_of_mem' ((pre ++ [] :: post).map List.length) d.length (List.mem_map_of_mem hm')
    have h2 := List.length_pos_of_ne_nil hne
    omega
  have hsplit : ds = ds.take pre.length ++ ds.drop pre.length := (List.take_append_drop _ _).symm
  have hdl : (ds.drop pre.length).length = post.length + 1 := by
    simp only [List.length_drop, hlen, List.length_append, List.length_cons]
    omega
  obtain ⟨d0, drest, hcons⟩ : ∃ d0 drest, ds.drop pre.length = d0 :: drest := by
    cases hx : ds.drop pre.length with
    | nil => rw [hx] at hdl; simp at hdl
    | cons a b => exact ⟨a, b, rfl⟩
  have hzip : (pre ++ [] :: post).zip ds = pre.zip (ds.take pre.length) ++ (([] : List α), d0) :: post.zip drest := by
    conv_lhs => rw [hsplit]
    rw [List.zip_append (by simp [hlen]), hcons]
    rfl
  have hstop : ∀ (l : List (List α × Draw)) (r : Res α) (rest : List (List α × Draw)), Good (fun _ => True) r → (∀ p ∈ l, p.1 ≠ [] ∧ Drawn r.nsamples total p.1.length p.2) →
      ∃ r', onePass z total r (l ++ (([] : List α), d0) :: rest) = (r', .error .valueError) := by
    intro l
    induction l with
    | nil =>
      intro r rest _ _
      exact ⟨r, by simp [onePass, update, htot]⟩
    | cons p l ih =>
      intro r rest hr h
      obtain ⟨h1, h2⟩ := h p (by simp)
      obtain ⟨r1, e1, e2, e3, -⟩ := update_good (fun _ => True) z total htot r hr p.1 h1 (fun _ _ => trivial) p.2 h2
      obtain ⟨r', e⟩ := ih r1 rest e2 (by rw [e3]; exact fun q hq => h q (by simp [hq]))
      refine ⟨r', ?_⟩
      obtain ⟨doc, d⟩ := p
      simp only [List.cons_append, onePass]
      rw [e1]
      exact e
  obtain ⟨r', e⟩ := hstop (pre.zip (ds.take pre.length)) ⟨n, none, []⟩ (post.zip drest) ⟨⟨by simp, by simp, by simp⟩, by simp, by simp⟩ (by
    intro p hp
    refine ⟨hpre _ (List.of_mem_zip hp).1, ?_⟩
    exact hdr p (by rw [hzip]; simp [hp]))
  unfold passes
  rw [← hT, hzip, e]

example := C374_empty_refuted 0 3 [[10, 20]] [] (by decide) ⟨[10, 20], by decide, by decide⟩ [⟨[1, 1, 0], [0, 2, 0]⟩, ⟨[], []⟩] []

/-- If no document has rows, ZeroDivisionError; without documents, TypeError. -/
theorem C374_none {α : Type} (z : α) (n : Nat) (hn : 0 < n) (docs : List (List α)) (h : ∀ d ∈ docs, d = []) (ds : List Draw) (hl : ds.length = docs.length) (rest : List (List Draw)) :
    passes z docs ⟨n, none, []⟩ (ds :: rest) = ([], some (if docs = [] then .typeError else .zeroDivision)) := by
  have ht : (docs.map List.length).sum = 0 := by
    clear hl
    induction docs with
    | nil => rfl
    | cons d docs ih => simp [h d (by simp), ih fun e he => h e (by simp [he])]
  unfold passes
  rw [ht]
  cases docs with
  | nil => simp [onePass, Res.get]
  | cons d docs =>
    cases ds with
    | nil => simp at hl
    | cons e es => simp [onePass, update]

example := C374_none 0 3 (by decide) [[], ([] : List Nat)] (by simp) [⟨[], []⟩, ⟨[], []⟩] rfl []

/-! ## C375: with threads -/

/-- The threads of a pass: rows of documents, each with a slot. -/
def Adds {α : Type} (n : Nat) (P : α → Prop) (ts : List (Thread α)) : Prop :=
  ∀ t ∈ ts, t.slots.length = t.rows.length ∧ (∀ k ∈ t.slots, k < n) ∧ ∀ x ∈ t.rows, P x

/-- There is an array, and in it rows of documents at all slots in use. -/
structure Ready {α : Type} (n : Nat) (P : α → Prop) (a : Nat) (w : World α) : Prop where
  arr : w.shared.arr = some a
  size : ∃ l, w.shared.heap[a]? = some l ∧ l.length = n
  used : ∀ k ∈ w.shared.indices, k < n ∧ ∀ x, (w.shared.heap.getD a [])[k]? = some x → P x
  adds : Adds n P w.threads
  pcs : ∀ t ∈ w.threads, t.pc ≠ .make ∧ (∀ b, t.pc = .write b → b = a) ∧
    (t.pc = .update → ∀ k ∈ t.slots, ∀ x, (w.shared.heap.getD a [])[k]? = some x → P x)

theorem ready_step {α : Type} (n : Nat) (z : α) (P : α → Prop) (a : Nat) (w : World α) (h : Ready n P a w) (i : Nat) : Ready n P a (step n z w i) := by
  unfold step
  split
  · exact h
  · rename_i t ht
    have hm : t ∈ w.threads := List.mem_of_getElem? ht
    obtain ⟨p1, p2, p3⟩ := h.pcs t hm
    obtain ⟨q1, q2, q3⟩ := h.adds t hm
    have hset : ∀ (t' : Thread α), ∀ u ∈ w.threads.set i t', u = t' ∨ u ∈ w.threads := fun t' u hu => (List.mem_or_eq_of_mem_set hu).symm
    have hadds : ∀ (t' : Thread α), t'.slots = t.slots → t'.rows = t.rows → Adds n P (w.threads.set i t') := by
      intro t' e1 e2 u hu
      rcases hset t' u hu with rfl | hu
      · rw [e1, e2]; exact ⟨q1, q2, q3⟩
      · exact h.adds u hu
    obtain ⟨l, hl, hln⟩ := h.size
    cases hpc : t.pc with
    | check =>
      have e : stepThread n z w.shared t = (w.shared, { t with pc := .read }) := by simp [stepThread, hpc, h.arr]
      rw [e]
      refine ⟨h.arr, h.size, h.used, hadds _ rfl rfl, ?_⟩
      intro u hu
      rcases hset _ u hu with rfl | hu
      · simp
      · exact h.pcs u hu
    | make => exact absurd hpc p1
    | read =>
      have e : stepThread n z w.shared t = (w.shared, { t with pc := .write a }) := by simp [stepThread, hpc, h.arr]
      rw [e]
      refine ⟨h.arr, h.size, h.used, hadds _ rfl rfl, ?_⟩
      intro u hu
      rcases hset _ u hu with rfl | hu
      · simp
      · exact h.pcs u hu
    | write b =>
      have hb := p2 b hpc
      subst hb
      have e : stepThread n z w.shared t = ({ w.shared with heap := w.shared.heap.set b (assign (w.shared.heap.getD b []) t.slots t.rows) }, { t with pc := .update }) := by
        simp [stepThread, hpc]
      rw [e]
      have hlt : b < w.shared.heap.length := (List.getElem?_eq_some_iff.1 hl).1
      have hgd : w.shared.heap.getD b [] = l := by rw [List.getD_eq_getElem?_getD, hl]; rfl
      have hnew : (w.shared.heap.set b (assign (w.shared.heap.getD b []) t.slots t.rows)).getD b [] = assign l t.slots t.rows := by
        rw [List.getD_eq_getElem?_getD, List.getElem?_set_self hlt, hgd]
        rfl
      have hkeep : ∀ k, (k ∈ t.slots ∨ ∀ x, (w.shared.heap.getD b [])[k]? = some x → P x) → ∀ x, (assign l t.slots t.rows)[k]? = some x → P x := by
        intro k hk x hx
        obtain ⟨a1, a2⟩ := assign_at k t.slots t.rows l q1
        by_cases hm2 : k ∈ t.slots
        · exact q3 x (a1 hm2 x hx)
        · rw [a2 hm2] at hx
          rcases hk with hk | hk
          · exact absurd hk hm2
          · exact hk x (by rw [hgd]; exact hx)
      refine ⟨h.arr, ⟨_, List.getElem?_set_self hlt, by rw [assign_length, hgd, hln]⟩, ?_, hadds _ rfl rfl, ?_⟩
      · intro k hk
        refine ⟨(h.used k hk).1, ?_⟩
        simp only []
        rw [hnew]
        exact hkeep k (Or.inr (h.used k hk).2)
      · intro u hu
        simp only []
        rw [hnew]
        rcases hset _ u hu with rfl | hu
        · refine ⟨by simp, by simp, ?_⟩
          intro _ k hk
          exact hkeep k (Or.inl hk)
        · obtain ⟨u1, u2, u3⟩ := h.pcs u hu
          refine ⟨u1, u2, ?_⟩
          intro hu4 k hk
          exact hkeep k (Or.inr (u3 hu4 k hk))
    | update =>
      have e : stepThread n z w.shared t = ({ w.shared with indices := w.shared.indices ++ t.slots.filter (· ∉ w.shared.indices) }, { t with pc := .done }) := by
        simp [stepThread, hpc]
      rw [e]
      refine ⟨h.arr, h.size, ?_, hadds _ rfl rfl, ?_⟩
      · intro k hk
        rcases List.mem_append.1 hk with hk | hk
        · exact h.used k hk
        · have hk := (List.mem_filter.1 hk).1
          exact ⟨q2 k hk, p3 hpc k hk⟩
      · intro u hu
        rcases hset _ u hu with rfl | hu
        · simp
        · exact h.pcs u hu
    | done =>
      have e : stepThread n z w.shared t = (w.shared, t) := by simp [stepThread, hpc]
      rw [e]
      refine ⟨h.arr, h.size, h.used, hadds _ rfl rfl, ?_⟩
      intro u hu
      rcases hset _ u hu with rfl | hu
      · exact ⟨p1, p2, p3⟩
      · exact h.pcs u hu

theorem ready_run {α : Type} (n : Nat) (z : α) (P : α → Prop) (a : Nat) : ∀ (is : List Nat) (w : World α), Ready n P a w → Ready n P a (run n z w is)
  | [], _, h => h
  | i :: is, w, h => ready_run n z P a is _ (ready_step n z P a w h i)

theorem ready_content {α : Type} (n : Nat) (P : α → Prop) (a : Nat) (w : World α) (h : Ready n P a w) :
    ∃ out, content n w.shared = .ok out ∧ ∀ x ∈ out, P x := by
  refine ⟨_, by unfold content; rw [h.arr], ?_⟩
  intro x hx
  obtain ⟨k, hk, e⟩ := rowsAt_mem _ _ x hx
  have := (List.mem_filter.1 hk).2
  exact (h.used k (by simpa using this)).2 x e

/-- **C375**: once there is an array, threads do no harm to each other: whatever the order of their steps, and at whatever moment the reservoir is looked at, there are only rows of
the documents in it. -/
theorem C375_ready {α : Type} (n : Nat) (z : α) (P : α → Prop) (l : List α) (hl : l.length = n) (used : List Nat) (hu : ∀ k ∈ used, k < n ∧ ∀ x, l[k]? = some x → P x)
    (ts : List (Thread α)) (hts : Adds n P ts) (hstart : ∀ t ∈ ts, t.pc = .check) (is : List Nat) :
    ∃ out, content n (run n z ⟨⟨[l], some 0, used⟩, ts⟩ is).shared = .ok out ∧ ∀ x ∈ out, P x := by
  apply ready_content n P 0
  apply ready_run
  refine ⟨rfl, ⟨l, rfl, hl⟩, ?_, hts, ?_⟩
  · intro k hk
    exact hu k hk
  · intro t ht
    simp [hstart t ht]

/-- So it is if one thread of the first pass has made the array before another looks for it. -/
theorem C375_first {α : Type} (n : Nat) (z : α) (P : α → Prop) (ts : List (Thread α)) (hts : Adds n P ts) (hstart : ∀ t ∈ ts, t.pc = .check) (i : Nat) (hi : i < ts.length)
    (is : List Nat) : ∃ out, content n (run n z ⟨⟨[], none, []⟩, ts⟩ (i :: i :: is)).shared = .ok out ∧ ∀ x ∈ out, P x := by
  apply ready_content n P 0
  simp only [run]
  apply ready_run
  have h0 : ts[i]? = some ts[i] := List.getElem?_eq_getElem hi
  have hc := hstart _ (List.getElem_mem hi)
  have e1 : step n z ⟨⟨[], none, []⟩, ts⟩ i = ⟨⟨[], none, []⟩, ts.set i { ts[i] with pc := .make }⟩ := by
    simp [step, h0, stepThread, hc]
  have e2 : step n z ⟨⟨[], none, []⟩, ts.set i { ts[i] with pc := .make }⟩ i = ⟨⟨[List.replicate n z], some 0, []⟩, ts.set i { ts[i] with pc := .read }⟩ := by
    simp [step, hi, stepThread]
  rw [e1, e2]
  refine ⟨rfl, ⟨_, rfl, by simp⟩, by simp, ?_, ?_⟩
  · intro t ht
    rcases List.mem_or_eq_of_mem_set ht with ht | rfl
    · exact hts t ht
    · exact hts ts[i] (List.getElem_mem hi)
  · intro t ht
    rcases List.mem_or_eq_of_mem_set ht with ht | rfl
    · simp [hstart t ht]
    · simp

/-- Every array ever made holds rows of documents and fresh rows only. -/
structure Mixed {α : Type} (n : Nat) (z : α) (P : α → Prop) (w : World α) : Prop where
  heap : ∀ l ∈ w.shared.heap, ∀ x ∈ l, x = z ∨ P x
  adds : Adds n P w.threads

theorem mixed_step {α : Type} (n : Nat) (z : α) (P : α → Prop) (w : World α) (h : Mixed n z P w) (i : Nat) : Mixed n z P (step n z w i) := by
  unfold step
  split
  · exact h
  · rename_i t ht
    have hm : t ∈ w.threads := List.mem_of_getElem? ht
    obtain ⟨q1, q2, q3⟩ := h.adds t hm
    have hkeep : (stepThread n z w.shared t).2.rows = t.rows ∧ (stepThread n z w.shared t).2.slots = t.slots := by
      unfold stepThread
      split <;> (try split) <;> exact ⟨rfl, rfl⟩
    refine ⟨?_, ?_⟩
    · intro l hl x hx
      revert hl
      unfold stepThread
      split
      · split <;> exact fun hl => h.heap l hl x hx
      · intro hl
        rcases List.mem_append.1 hl with hl | hl
        · exact h.heap l hl x hx
        · rw [List.mem_singleton] at hl
          subst hl
          exact Or.inl (List.eq_of_mem_replicate hx)
      · exact fun hl => h.heap l hl x hx
      · rename_i b _
        intro hl
        rcases List.mem_or_eq_of_mem_set hl with hl | rfl
        · exact h.heap l hl x hx
        · obtain ⟨k, hk⟩ := List.getElem?_of_mem hx
          obtain ⟨a1, a2⟩ := assign_at k t.slots t.rows (w.shared.heap.getD b []) q1
          by_cases hs : k ∈ t.slots
          · exact Or.inr (q3 x (a1 hs x hk))
          · rw [a2 hs] at hk
            have hmem := List.mem_of_getElem? hk
            rw [List.getD_eq_getElem?_getD] at hmem
            cases hb : w.shared.heap[b]? with
            | none => rw [hb] at hmem; simp at hmem
            | some l' =>
              rw [hb] at hmem
              exact h.heap l' (List.mem_of_getElem? hb) x hmem
      · exact fun hl => h.heap l hl x hx
      · exact fun hl => h.heap l hl x hx
    · intro u hu
      rcases List.mem_or_eq_of_mem_set hu with hu | rfl
      · exact h.adds u hu
      · rw [hkeep.1, hkeep.2]
        exact ⟨q1, q2, q3⟩

/-- Whatever the order: a row of the reservoir is a row of a document or a row of zeros. -/
theorem C375_any {α : Type} (n : Nat) (z : α) (P : α → Prop) (ts : List (Thread α)) (hts : Adds n P ts) (is : List Nat) (out : List α)
    (h : content n (run n z ⟨⟨[], none, []⟩, ts⟩ is).shared = .ok out) : ∀ x ∈ out, x = z ∨ P x := by
  have hall : ∀ (is : List Nat) (w : World α), Mixed n z P w → Mixed n z P (run n z w is) := by
    intro is
    induction is with
    | nil => exact fun _ h => h
    | cons i is ih => exact fun w h => ih _ (mixed_step n z P w h i)
  have hm := hall is ⟨⟨[], none, []⟩, ts⟩ ⟨by simp, hts⟩
  intro x hx
  unfold content at h
  split at h
  · exact absurd h (by simp)
  · rename_i a _
    cases h
    obtain ⟨k, -, e⟩ := rowsAt_mem _ _ x hx
    have hmem := List.mem_of_getElem? e
    rw [List.getD_eq_getElem?_getD] at hmem
    cases hb : (run n z ⟨⟨[], none, []⟩, ts⟩ is).shared.heap[a]? with
    | none => rw [hb] at hmem; simp at hmem
    | some l =>
      rw [hb] at hmem
      exact hm.heap l (List.mem_of_getElem? hb) x hmem

/-- Refuted: that only rows of the documents are ever yielded (`parallel=True`, the default): if two threads both look for the array before one makes it, the rows the first has added
are lost, and in their places rows of zeros are yielded. -/
theorem C375_refuted {α : Type} (z a b : α) :
    content 2 (run 2 z ⟨⟨[], none, []⟩, [⟨[a], [0], .check⟩, ⟨[b], [1], .check⟩]⟩ [0, 1, 0, 0, 0, 0, 1, 1, 1, 1]).shared = .ok [z, b] ∧
      ∀ t ∈ (run 2 z ⟨⟨[], none, []⟩, [⟨[a], [0], .check⟩, ⟨[b], [1], .check⟩]⟩ [0, 1, 0, 0, 0, 0, 1, 1, 1, 1]).threads, t.pc = .done := by
  have e : run 2 z ⟨⟨[], none, []⟩, [⟨[a], [0], .check⟩, ⟨[b], [1], .check⟩]⟩ [0, 1, 0, 0, 0, 0, 1, 1, 1, 1] =
      ⟨⟨[[a, z], [z, b]], some 1, [0, 1]⟩, [⟨[a], [0], .done⟩, ⟨[b], [1], .done⟩]⟩ := by
    simp [run, step, stepThread, assign]
  rw [e]
  constructor
  · simp [content, rowsAt, List.range_succ]
  · intro t ht
    simp only [List.mem_cons, List.not_mem_nil, or_false] at ht
    rcases ht with rfl | rfl <;> rfl

/-- Two threads of a pass. -/
theorem two_adds : Adds 2 (fun x => x = 7 ∨ x = 8) [⟨[7], [0], .check⟩, ⟨[8], [1], .check⟩] := by
  intro t ht
  simp only [List.mem_cons, List.not_mem_nil, or_false] at ht
  rcases ht with rfl | rfl <;> exact ⟨rfl, by decide, by decide⟩

example := C375_ready 2 0 (fun x => x = 7 ∨ x = 8) [7, 0] rfl [0] (by
  intro k hk
  simp only [List.mem_singleton] at hk
  subst hk
  exact ⟨by decide, fun x hx => by cases hx; exact Or.inl rfl⟩) _ two_adds (by decide) [1, 0, 1, 0]
example := C375_first 2 0 (fun x => x = 7 ∨ x = 8) _ two_adds (by decide) 1 (by decide) [0, 1, 0, 1, 0]
example := C375_any 2 0 (fun x => x = 7 ∨ x = 8) _ two_adds [0, 1, 0, 0, 0, 0, 1, 1, 1, 1] [0, 8] (C375_refuted 0 7 8).1

end Zounds.Sampler
