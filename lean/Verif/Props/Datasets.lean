import Verif.Model.Datasets
import Mathlib.Tactic.Common
import Mathlib.Tactic.Ring

/-!
# C42: FreeSoundSearch; C43: local copies of remote files; C41: composite data sets
-/

namespace Zounds.Datasets

/-! ## C42 -/

theorem searchLoop_eq {α : Type} (n : Int) : ∀ (xs : List α) (i : Nat),
    searchLoop n i xs = if (n + 1 - i).toNat < xs.length then (xs.take (n + 1 - i).toNat, none)
      else (xs, some .recursionError) := by
  intro xs
  induction xs with
  | nil => intro i; simp [searchLoop]
  | cons x xs ih =>
    intro i
    simp only [searchLoop, ih]
    by_cases h : (i : Int) > n
    · have : (n + 1 - i).toNat = 0 := by omega
      simp [h, this]
    · have e : (n + 1 - (i : Int)).toNat = (n + 1 - ((i + 1 : Nat) : Int)).toNat + 1 := by omega
      simp only [h, if_false, e, List.length_cons]
      by_cases h2 : (n + 1 - ((i + 1 : Nat) : Int)).toNat < xs.length
      · rw [if_pos h2, if_pos (by omega)]; simp
      · rw [if_neg h2, if_neg (by omega)]

/-- A search whose results come on `pages`, linked in order, the last without a next page. -/
def pagedServer {α : Type} (pages : List (List α)) : Server α where
  first := ⟨pages.getD 0 [], if 1 < pages.length then some 1 else none⟩
  page k := ⟨pages.getD k [], if k + 1 < pages.length then some (k + 1) else none⟩

theorem paged_nth {α : Type} (pages : List (List α)) (hp : pages ≠ []) : ∀ k,
    (pagedServer pages).nth k = ⟨pages.getD (k % pages.length) [],
      if k % pages.length + 1 < pages.length then some (k % pages.length + 1) else none⟩ := by
  have hpos : 0 < pages.length := List.length_pos_iff.2 hp
  intro k
  induction k with
  | zero => simp [Server.nth, Server.get, pagedServer, Nat.zero_mod]
  | succ k ih =>
    rw [Server.nth, ih]
    have hm := Nat.mod_lt k hpos
    by_cases h : k % pages.length + 1 < pages.length
    · have e : (k + 1) % pages.length = k % pages.length + 1 := by
        rw [Nat.add_mod, Nat.mod_eq_of_lt (a := 1) (by omega), Nat.mod_eq_of_lt h]
      simp only [h, if_true, Server.get, pagedServer, e]
    · have e : (k + 1) % pages.length = 0 := by
        have h2 : k % pages.length + 1 = pages.length := by omega
        have h3 := Nat.div_add_mod k pages.length
        have : k + 1 = pages.length * (k / pages.length + 1) := by rw [Nat.mul_add]; omega
        rw [this, Nat.mul_mod_right]
      simp only [h, if_false, Server.get, pagedServer, e]

theorem paged_results {α : Type} (pages : List (List α)) (hp : pages ≠ []) (m : Nat) :
    iterResults (pagedServer pages) (pages.length * m) = (List.replicate m pages.flatten).flatten := by
  induction m with
  | zero => simp [iterResults]
  | succ m ih =>
    unfold iterResults at ih ⊢
    rw [Nat.mul_succ, List.range_add, List.flatMap_append, ih, List.replicate_succ', List.flatten_append]
    congr 1
    simp only [List.flatten_cons, List.flatten_nil, List.append_nil, List.flatMap_map]
    rw [List.flatMap_def]
    congr 1
    apply List.ext_getElem (by simp)
    intro i h1 h2
    simp only [List.length_map, List.length_range] at h1
    simp only [List.getElem_map, List.getElem_range, paged_nth pages hp]
    rw [Nat.mul_add_mod, Nat.mod_eq_of_lt h1]
    simp [h1]

theorem results_prefix {α : Type} (s : Server α) (a b : Nat) (h : a ≤ b) : iterResults s a <+: iterResults s b := by
  obtain ⟨c, rfl⟩ := Nat.exists_eq_add_of_le h
  unfold iterResults
  rw [List.range_add, List.flatMap_append]
  exact List.prefix_append _ _

theorem replicate_flatten_getElem? {α : Type} (l : List α) : ∀ (m i : Nat), i < l.length * m →
    ((List.replicate m l).flatten)[i]? = l[i % l.length]? := by
  intro m
  induction m with
  | zero => intro i hi; simp at hi
  | succ m ih =>
    intro i hi
    rw [List.replicate_succ, List.flatten_cons]
    by_cases h : i < l.length
    · rw [List.getElem?_append_left h, Nat.mod_eq_of_lt h]
    · rw [List.getElem?_append_right (by omega), ih _ (by rw [Nat.mul_succ] at hi; omega)]
      rw [← Nat.mod_eq_sub_mod (by omega)]

/-- **C42, what a search yields**: when the search has `R > 0` results in all, on any pages, and the recursion limit leaves room for enough
pages, iterating yields exactly `n_results + 1` sounds and the `i`-th of them is result number `i mod R`. -/
theorem C42_yields {α : Type} (pages : List (List α)) (limit : Nat) (n : Nat) (m : Nat)
    (henough : n + 2 ≤ pages.flatten.length * m) (hlimit : pages.length * m ≤ limit) :
    (freeSound (pagedServer pages) limit n).2 = none ∧
    (freeSound (pagedServer pages) limit n).1.length = n + 1 ∧
    ∀ i, i ≤ n → (freeSound (pagedServer pages) limit n).1[i]? = pages.flatten[i % pages.flatten.length]? := by
  have hp : pages ≠ [] := by rintro rfl; simp at henough
  obtain ⟨t, ht⟩ := results_prefix (pagedServer pages) _ _ hlimit
  rw [paged_results pages hp] at ht
  have hlen : ((List.replicate m pages.flatten).flatten).length = pages.flatten.length * m := by
    rw [List.length_flatten, List.map_replicate, List.sum_replicate_nat]; ring
  have e : ((n : Int) + 1 - (0 : Nat)).toNat = n + 1 := by omega
  have hl : n + 1 < (iterResults (pagedServer pages) limit).length := by
    rw [← ht, List.length_append, hlen]; omega
  unfold freeSound
  rw [searchLoop_eq, e, if_pos hl]
  refine ⟨rfl, by simp; omega, ?_⟩
  intro i hi
  show (List.take (n + 1) _)[i]? = _
  rw [List.getElem?_take_of_lt (by omega), ← ht, List.getElem?_append_left (by omega)]
  exact replicate_flatten_getElem? _ _ _ (by omega)

example := C42_yields [[1, 2], [3]] 100 4 2 (by decide) (by decide)

/-- **C42, first results**: when there are at least `n_results` results, the first `n_results` sounds yielded are the first `n_results`
results, in order. -/
theorem C42_first_partial {α : Type} (pages : List (List α)) (limit n m : Nat) (henough : n + 2 ≤ pages.flatten.length * m)
    (hlimit : pages.length * m ≤ limit) (hn : n ≤ pages.flatten.length) :
    (freeSound (pagedServer pages) limit n).1.take n = pages.flatten.take n := by
  obtain ⟨-, h2, h3⟩ := C42_yields pages limit n m henough hlimit
  apply List.ext_getElem?
  intro i
  by_cases hi : i < n
  · rw [List.getElem?_take_of_lt hi, List.getElem?_take_of_lt hi, h3 i (by omega), Nat.mod_eq_of_lt (by omega)]
  · rw [List.getElem?_eq_none (by simp; omega), List.getElem?_eq_none (by simp; omega)]

example := C42_first_partial [[1, 2], [3]] 100 3 2 (by decide) (by decide) (by decide)

/-- **C42, refuted**: one sound more than asked for, whenever a search succeeds at all. -/
theorem C42_one_more_refuted {α : Type} (s : Server α) (limit : Nat) (n : Nat) (h : (freeSound s limit n).2 = none) :
    (freeSound s limit n).1.length = n + 1 := by
  have e : ((n : Int) + 1 - (0 : Nat)).toNat = n + 1 := by omega
  unfold freeSound at h ⊢
  rw [searchLoop_eq, e] at h ⊢
  split at h
  · rename_i hl; rw [if_pos hl]; simp; omega
  · cases h

/-- **C42, refuted for small searches**: when there are only `R` results and `n_results ≥ R`, the first result comes again after the last:
sound number `R` is the first one. -/
theorem C42_repeats_refuted {α : Type} (pages : List (List α)) (limit n m : Nat) (henough : n + 2 ≤ pages.flatten.length * m)
    (hlimit : pages.length * m ≤ limit) (hn : pages.flatten.length ≤ n) :
    (freeSound (pagedServer pages) limit n).1[pages.flatten.length]? = (freeSound (pagedServer pages) limit n).1[0]? := by
  obtain ⟨-, -, h3⟩ := C42_yields pages limit n m henough hlimit
  rw [h3 _ hn, h3 0 (by omega), Nat.mod_self, Nat.zero_mod]

/-- **C42, refuted without results**: a search that finds nothing ends in a RecursionError. -/
theorem C42_no_results_refuted {α : Type} (pages : List (List α)) (hp : pages ≠ []) (h : pages.flatten = []) (limit : Nat) (n : Int) :
    freeSound (pagedServer pages) limit n = ([], some .recursionError) := by
  have hnil : iterResults (pagedServer pages) limit = [] := by
    have hpos : 0 < pages.length := List.length_pos_iff.2 hp
    have h1 := results_prefix (pagedServer pages) limit (pages.length * limit) (Nat.le_mul_of_pos_left _ hpos)
    rw [paged_results pages hp, h] at h1
    have h2 : (List.replicate limit ([] : List α)).flatten = [] := by simp
    rw [h2] at h1
    exact List.prefix_nil.1 h1
  unfold freeSound
  rw [hnil]; rfl

/-- **C42, limits**: an iteration that reaches the recursion limit before it has enough yields what it found and raises
RecursionError. -/
theorem C42_limit {α : Type} (s : Server α) (limit : Nat) (n : Nat) (h : (iterResults s limit).length ≤ n + 1) :
    freeSound s limit n = (iterResults s limit, some .recursionError) := by
  have e : ((n : Int) + 1 - (0 : Nat)).toNat = n + 1 := by omega
  unfold freeSound
  rw [searchLoop_eq, e, if_neg (by omega)]

example := C42_limit (pagedServer [[1, 2], [3]]) 2 7 (by decide)

/-- Asking for a negative number of sounds yields none (asking for zero yields one, `C42_one_more_refuted`). -/
theorem C42_negative {α : Type} (s : Server α) (limit : Nat) (n : Int) (hn : n < 0) (h : iterResults s limit ≠ []) :
    freeSound s limit n = ([], none) := by
  unfold freeSound
  have e : (n + 1 - ((0 : Nat) : Int)).toNat = 0 := by omega
  rw [searchLoop_eq, e, if_pos (List.length_pos_iff.2 h)]; simp

example := C42_negative (pagedServer [[1, 2], [3]]) 2 (-1) (by decide) (by decide)

/-- Three results on two pages: asking for four gives five, the first two again. -/
example : freeSound (pagedServer [[1, 2], [3]]) 100 4 = ([1, 2, 3, 1, 2], none) := by decide

/-! ## composite data sets -/

/-- **C41, composite data sets**: they yield the elements of all their parts, in order. -/
theorem C41_composite {α : Type} (a b : List (List α)) (d : List α) :
    composite [] = ([] : List α) ∧ composite [d] = d ∧ composite (a ++ b) = composite a ++ composite b := by
  simp [composite]

/-! ## C43 -/

theorem writeLoop_eq (total : Int) : ∀ (chunks : List Bytes) (acc : Bytes),
    (writeLoop total acc chunks).1 <+: acc ++ chunks.flatten ∧
    acc <+: (writeLoop total acc chunks).1 ∧
    ((total ≠ 0 ∨ chunks = []) → writeLoop total acc chunks = (acc ++ chunks.flatten, none)) := by
  intro chunks
  induction chunks with
  | nil => intro acc; simp [writeLoop]
  | cons c cs ih =>
    intro acc
    simp only [writeLoop]
    by_cases h : total = 0
    · simp only [h, if_true]
      refine ⟨by simp, List.prefix_append _ _, by simp⟩
    · simp only [h, if_false]
      obtain ⟨h1, h2, h3⟩ := ih (acc ++ c)
      refine ⟨?_, ?_, ?_⟩
      · simpa [List.append_assoc] using h1
      · exact (List.prefix_append _ _).trans h2
      · intro _
        rw [h3 (.inl h)]; simp

/-- A good answer: a success status, its length declared and not zero (or no content at all), and nothing breaks. -/
def Good (r : Remote) (content : Bytes) : Prop :=
  ∃ status total chunks, r = .reply status (some total) chunks false ∧ status < 400 ∧
    (total ≠ 0 ∨ chunks = []) ∧ chunks.flatten = content

/-- **C43, first call**: when there is no local file and the remote side answers properly, an uninterrupted call stores the whole content
under the last component of the url's path, leaves every other file alone and returns that path. -/
theorem C43_first_call (d : Disk) (u : Url) (r : Remote) (content : Bytes) (hg : Good r content)
    (hd : d.exists (fileName u) = false) :
    (ensureLocalFile d u r).2 = .ok (fileName u) ∧ (ensureLocalFile d u r).1 (fileName u) = some content ∧
    ∀ n, n ≠ fileName u → (ensureLocalFile d u r).1 n = d n := by
  obtain ⟨status, total, chunks, rfl, -, ht, hc⟩ := hg
  have hw := (writeLoop_eq total chunks []).2.2 ht
  rw [List.nil_append, hc] at hw
  unfold ensureLocalFile
  simp only [hd, Bool.false_eq_true, if_false, hw]
  refine ⟨trivial, by simp [Disk.write], fun n hn => by simp [Disk.write, hn]⟩

example := C43_first_call (fun _ => none) ⟨['/', 'a'], []⟩ (.reply 200 (some 3) [[1, 2], [3]] false) [1, 2, 3] ⟨200, 3, _, rfl, by decide, .inl (by decide), rfl⟩ rfl

/-- **C43, existing files**: once the file exists, a call returns its path and changes nothing, whatever the remote side would do. -/
theorem C43_cached (d : Disk) (u : Url) (r : Remote) (hd : d.exists (fileName u) = true) :
    ensureLocalFile d u r = (d, .ok (fileName u)) := by
  unfold ensureLocalFile
  simp [hd]

example := C43_cached (fun _ => some [1, 2]) ⟨['/', 'a'], []⟩ (.reply 200 (some 3) [[1, 2], [3]] false) rfl

theorem ensure_cases (d : Disk) (u : Url) (r : Remote) (hd : d.exists (fileName u) = false) :
    ∃ p, p <+: r.body ∧ (ensureLocalFile d u r).1 = d.write (fileName u) p := by
  unfold ensureLocalFile
  simp only [hd, Bool.false_eq_true, if_false]
  rcases r with _ | ⟨status, _ | total, chunks, breaks⟩
  · exact ⟨[], List.nil_prefix, rfl⟩
  · exact ⟨[], List.nil_prefix, rfl⟩
  · have h := (writeLoop_eq total chunks []).1
    rw [List.nil_append] at h
    refine ⟨(writeLoop total [] chunks).1, h, ?_⟩
    rcases hw : writeLoop total [] chunks with ⟨c, _ | e⟩ <;> simp [hw]

theorem call_cases {d d' : Disk} {u : Url} {r : Remote} (h : Call d u r d') :
    d' = d ∨ (d.exists (fileName u) = false ∧ ∃ p, p <+: r.body ∧ d' = d.write (fileName u) p) := by
  cases h with
  | returned h =>
    by_cases hd : d.exists (fileName u) = true
    · rw [C43_cached d u r hd] at h; exact .inl h.symm
    · have hd' : d.exists (fileName u) = false := by simpa using hd
      obtain ⟨p, hp, he⟩ := ensure_cases d u r hd'
      exact .inr ⟨hd', p, hp, by rw [← h, he]⟩
  | died h => exact h

/-- **C43, never changed**: whatever calls follow and however they are interrupted, an existing file keeps its content. -/
theorem C43_stable {d d' : Disk} {es : List (Url × Remote)} (h : History d es d') (n : List Char) (c : Bytes) (hc : d n = some c) :
    d' n = some c := by
  induction h with
  | nil => exact hc
  | cons hcall _ ih =>
    apply ih
    rcases call_cases hcall with rfl | ⟨hex, p, -, rfl⟩
    · exact hc
    · unfold Disk.write
      split
      · rename_i e
        rw [← e] at hex
        simp [Disk.exists, hc] at hex
      · exact hc

example := C43_stable (.cons (.returned rfl) (.nil _) : History (fun _ => some [7]) [(⟨['/', 'a'], []⟩, .reply 200 (some 3) [[1, 2], [3]] false)] _) ['a'] [7] rfl

/-- **C43, always a beginning**: whatever calls were made and wherever they were interrupted, a file that appeared holds a beginning of
what the remote side sent in answer to one of the calls for a url with that file name. -/
theorem C43_prefix {d d' : Disk} {es : List (Url × Remote)} (h : History d es d') (n : List Char) (hn : d n = none) (c : Bytes)
    (hc : d' n = some c) : ∃ e ∈ es, fileName e.1 = n ∧ c <+: e.2.body := by
  induction h with
  | nil => rw [hn] at hc; cases hc
  | @cons d d1 d2 u r es hcall hrest ih =>
    rcases call_cases hcall with rfl | ⟨hex, p, hp, rfl⟩
    · obtain ⟨e, he, h1, h2⟩ := ih hn hc
      exact ⟨e, by simp [he], h1, h2⟩
    · by_cases e : n = fileName u
      · have h1 : (d.write (fileName u) p) n = some p := by simp [Disk.write, e]
        have h2 := C43_stable hrest n p h1
        rw [hc] at h2; cases h2
        exact ⟨(u, r), by simp, e.symm, hp⟩
      · have h1 : (d.write (fileName u) p) n = none := by simp [Disk.write, e, hn]
        obtain ⟨e, he, h1, h2⟩ := ih h1 hc
        exact ⟨e, by simp [he], h1, h2⟩

example := C43_prefix (.cons (.died (.inr ⟨rfl, [1, 2], by decide, rfl⟩)) (.nil _) : History (fun _ => none) [(⟨['/', 'a'], []⟩, .reply 200 (some 3) [[1, 2], [3]] false)] _)
  ['a'] rfl [1, 2] rfl

/-- Histories in which no call is interrupted. -/
inductive Calm : Disk → List (Url × Remote) → Disk → Prop
  | nil (d : Disk) : Calm d [] d
  | cons {d d'' : Disk} {u : Url} {r : Remote} {es : List (Url × Remote)} :
      Calm (ensureLocalFile d u r).1 es d'' → Calm d ((u, r) :: es) d''

/-- **C43, completeness without accidents**: when no call was interrupted and every answer for urls with this file name was proper and had
the same content, the file is absent or complete; it is there once one such call was made. -/
theorem C43_complete_partial {d d' : Disk} {es : List (Url × Remote)} (h : Calm d es d') (n : List Char) (hne : n ≠ []) (content : Bytes)
    (hg : ∀ e ∈ es, fileName e.1 = n → Good e.2 content) (hn : d n = none ∨ d n = some content) :
    (d' n = none ∨ d' n = some content) ∧ ((∃ e ∈ es, fileName e.1 = n) → d' n = some content) := by
  have key : ∀ {d d'' : Disk} {es : List (Url × Remote)}, Calm d es d'' →
      (∀ e ∈ es, fileName e.1 = n → Good e.2 content) → d n = some content → d'' n = some content := by
    intro d d'' es h
    induction h with
    | nil => intro _ h; exact h
    | @cons d d'' u r es hrest ih =>
      intro hg hc
      apply ih (fun e he => hg e (by simp [he]))
      by_cases hx : d.exists (fileName u) = true
      · rw [C43_cached d u r hx]; exact hc
      · have hx' : d.exists (fileName u) = false := by simpa using hx
        have hnu : n ≠ fileName u := by
          rintro rfl; simp [Disk.exists, hc] at hx'
        obtain ⟨p, -, hp⟩ := ensure_cases d u r hx'
        rw [hp]; simp [Disk.write, hnu, hc]
  induction h with
  | nil => exact ⟨hn, by simp⟩
  | @cons d d'' u r es hrest ih =>
    have hg' : ∀ e ∈ es, fileName e.1 = n → Good e.2 content := fun e he => hg e (by simp [he])
    by_cases hu : fileName u = n
    · have h1 : (ensureLocalFile d u r).1 n = some content := by
        rcases hn with hn | hn
        · have hx : d.exists (fileName u) = false := by
            rw [hu]; simp [Disk.exists, hn, hne]
          have := (C43_first_call d u r content (hg (u, r) (by simp) hu) hx).2.1
          rwa [hu] at this
        · rw [C43_cached d u r (by rw [hu]; simp [Disk.exists, hn])]; exact hn
      have h2 := key hrest hg' h1
      exact ⟨.inr h2, fun _ => h2⟩
    · have h1 : (ensureLocalFile d u r).1 n = d n := by
        by_cases hx : d.exists (fileName u) = true
        · rw [C43_cached d u r hx]
        · obtain ⟨p, -, hp⟩ := ensure_cases d u r (by simpa using hx)
          rw [hp]; simp [Disk.write, Ne.symm hu]
      obtain ⟨a, b⟩ := ih hg' (by rw [h1]; exact hn)
      refine ⟨a, ?_⟩
      rintro ⟨e, he, hen⟩
      rcases List.mem_cons.1 he with rfl | he
      · exact absurd hen hu
      · exact b ⟨e, he, hen⟩

example := C43_complete_partial (.cons (.nil _) : Calm (fun _ => none) [(⟨['/', 'a'], []⟩, .reply 200 (some 3) [[1, 2], [3]] false)] _) ['a'] (by simp) [1, 2, 3]
  (by intro e he _; simp at he; subst he; exact ⟨200, 3, _, rfl, by decide, .inl (by decide), rfl⟩) (.inl rfl)

/-- **C43, refuted for crashes**: whatever non-empty content is to be downloaded, a process may die during the download and leave an
incomplete file, and every later call accepts it as it is. -/
theorem C43_crash_refuted (d : Disk) (u : Url) (r : Remote) (hd : d.exists (fileName u) = false) (hb : r.body ≠ []) :
    ∃ d' c, Call d u r d' ∧ d' (fileName u) = some c ∧ c ≠ r.body ∧
      ∀ r', ensureLocalFile d' u r' = (d', .ok (fileName u)) := by
  refine ⟨d.write (fileName u) [], [], .died (.inr ⟨hd, [], List.nil_prefix, rfl⟩), by simp [Disk.write], fun h => hb h.symm, ?_⟩
  intro r'
  exact C43_cached _ u r' (by simp [Disk.exists, Disk.write])

/-- **C43, refuted for failures that raise**: when the remote side cannot be reached or does not declare a length, the call raises and
leaves an empty file that every later call accepts. -/
theorem C43_failure_refuted (d : Disk) (u : Url) (hd : d.exists (fileName u) = false) (r : Remote)
    (hr : r = .unreachable ∨ ∃ s cs b, r = .reply s none cs b) :
    (∃ e, (ensureLocalFile d u r).2 = .error e) ∧ (ensureLocalFile d u r).1 (fileName u) = some [] ∧
    ∀ r', ensureLocalFile (ensureLocalFile d u r).1 u r' = ((ensureLocalFile d u r).1, .ok (fileName u)) := by
  have h : (ensureLocalFile d u r).1 = d.write (fileName u) [] ∧ ∃ e, (ensureLocalFile d u r).2 = .error e := by
    rcases hr with rfl | ⟨s, cs, b, rfl⟩
    · simp [ensureLocalFile, hd]
    · simp [ensureLocalFile, hd]
  refine ⟨h.2, by rw [h.1]; simp [Disk.write], ?_⟩
  intro r'
  exact C43_cached _ u r' (by rw [h.1]; simp [Disk.exists, Disk.write])

/-- **C43, refuted for error answers**: an error page (any status) is stored as the file and accepted. -/
theorem C43_error_page_refuted (d : Disk) (u : Url) (hd : d.exists (fileName u) = false) (page : Bytes) (total : Int) (ht : total ≠ 0) :
    (ensureLocalFile d u (.reply 404 (some total) [page] false)).2 = .ok (fileName u) ∧
    (ensureLocalFile d u (.reply 404 (some total) [page] false)).1 (fileName u) = some page := by
  simp [ensureLocalFile, hd, writeLoop, ht, Disk.write]

/-- **C43, refuted for equal file names**: two urls whose paths end alike share one file: the second is answered with the first one's
content. -/
theorem C43_name_refuted (d : Disk) (u v : Url) (r r' : Remote) (content : Bytes) (hg : Good r content)
    (hd : d.exists (fileName u) = false) (huv : fileName u = fileName v) :
    (ensureLocalFile (ensureLocalFile d u r).1 v r').2 = .ok (fileName v) ∧
    (ensureLocalFile (ensureLocalFile d u r).1 v r').1 (fileName v) = some content := by
  obtain ⟨-, h2, -⟩ := C43_first_call d u r content hg hd
  rw [huv] at h2
  rw [C43_cached _ v r' (by simp [Disk.exists, h2])]
  exact ⟨rfl, h2⟩

theorem fileName_eq (dir name : List Char) (rest : List Char) (h : '/' ∉ name) : fileName ⟨dir ++ '/' :: name, rest⟩ = name := by
  unfold fileName
  have h' : ∀ x ∈ name.reverse, decide (x ≠ '/') = true := by
    intro x hx
    have : x ≠ '/' := by rintro rfl; exact h (List.mem_reverse.1 hx)
    simpa using this
  have e : (dir ++ '/' :: name).reverse = name.reverse ++ '/' :: dir.reverse := by simp
  rw [e, List.takeWhile_append_of_pos h']
  simp

/-- **C43, file names**: the local name is what follows the last slash of the url's path, whatever the rest of the url. -/
theorem C43_file_name (dir name rest : List Char) (h : '/' ∉ name) : fileName ⟨dir ++ '/' :: name, rest⟩ = name := fileName_eq dir name rest h

example := C43_file_name ['x', '/', 'y'] ['a', 'b'] ['?', 'z'] (by decide)

/-- **C43, refuted for urls that end in a slash**: nothing is downloaded; the directory itself is returned. -/
theorem C43_slash_refuted (d : Disk) (dir rest : List Char) (r : Remote) :
    ensureLocalFile d ⟨dir ++ ['/'], rest⟩ r = (d, .ok []) := by
  have : fileName ⟨dir ++ ['/'], rest⟩ = [] := fileName_eq dir [] rest (by simp)
  rw [C43_cached _ _ _ (by simp [Disk.exists, this]), this]

/-! ### DataSetCache -/

/-- **C43, the data set cache, refuted**: for data sets of `AudioMetaData` or of requests with text urls (all that exist), iterating over a
non-empty cache raises at once, and nothing is downloaded or yielded. -/
theorem C43_dataset_cache_refuted (md5 : List Nat → List Char) (d : Disk) (e : Elem) (r : Remote) (es : List (Elem × Remote))
    (he : e = .audioMetaData ∨ ∃ u, e = .textUrl u) :
    ∃ x, cacheIter md5 d ((e, r) :: es) = (d, [], some x) := by
  rcases he with rfl | ⟨u, rfl⟩
  · exact ⟨.attributeError, rfl⟩
  · exact ⟨.typeError, rfl⟩

/-- **C43, the data set cache, bytes urls**: an error answer is never stored, an existing file is kept, a proper answer is stored whole. -/
theorem C43_dataset_cache (md5 : List Nat → List Char) (d : Disk) (u : List Nat) :
    (d.exists (md5 u) = true → ∀ r, cacheOne md5 d (.bytesUrl u) r = (d, .ok (md5 u))) ∧
    (d.exists (md5 u) = false → ∀ status l cs b, 400 ≤ status → status < 600 →
      cacheOne md5 d (.bytesUrl u) (.reply status l cs b) = (d, .error .httpError)) ∧
    (d.exists (md5 u) = false → ∀ r content, Good r content →
      cacheOne md5 d (.bytesUrl u) r = (d.write (md5 u) content, .ok (md5 u))) := by
  refine ⟨fun h r => by simp [cacheOne, h], fun h status l cs b h1 h2 => by simp [cacheOne, h, h1, h2], ?_⟩
  rintro h r content ⟨status, total, chunks, rfl, hs, -, rfl⟩
  have : ¬ (400 ≤ status ∧ status < 600) := by omega
  simp [cacheOne, h, this]

example := (C43_dataset_cache (fun _ => ['m']) (fun _ => some [1, 2]) [1]).1 rfl (.reply 200 (some 3) [[1, 2], [3]] false)

/-- A proper answer, and a directory without the file. -/
example : Good (.reply 200 (some 3) [[1, 2], [3]] false) [1, 2, 3] := ⟨200, 3, _, rfl, by decide, .inl (by decide), rfl⟩
example : (ensureLocalFile (fun _ => none) ⟨['/', 'a'], []⟩ (.reply 200 (some 3) [[1, 2], [3]] false)).1 ['a'] = some [1, 2, 3] := by
  decide

end Zounds.Datasets
