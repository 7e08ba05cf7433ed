import Verif.Model.Shuffled
import Verif.Props.Reservoir
import Mathlib.Data.List.Induction
import Mathlib.Data.List.Dedup

/-!
# C372, C373: the shuffled samples of a learning pipeline
-/

namespace Zounds.Shuffled
open Zounds Zounds.Reservoir

/-- Row `j` is kept: no later row drew the same number. -/
def Kept (ds : List Int) (j : Nat) : Prop := ∃ k, ds[j]? = some k ∧ ∀ i, j < i → ds[i]? ≠ some k

/-- A stream: chunks of rows, for every row a number of a slot. -/
def Stream {α : Type} (n : Nat) (cs : List (List α × List Int)) : Prop :=
  ∀ c ∈ cs, c.2.length = c.1.length ∧ ∀ i ∈ c.2, 0 ≤ i ∧ i < n

/-- All rows of a stream. -/
def rows {α : Type} (cs : List (List α × List Int)) : List α := (cs.map (·.1)).flatten

/-- All numbers drawn. -/
def drawn {α : Type} (cs : List (List α × List Int)) : List Int := (cs.map (·.2)).flatten

theorem stream_length {α : Type} (n : Nat) : ∀ (cs : List (List α × List Int)), Stream n cs → (drawn cs).length = (rows cs).length
  | [], _ => rfl
  | c :: cs, h => by
    have h1 := (h c (by simp)).1
    have h2 := stream_length n cs fun d hd => h d (by simp [hd])
    simp only [drawn, rows, List.map_cons, List.flatten_cons, List.length_append] at *
    omega

theorem stream_range {α : Type} (n : Nat) (cs : List (List α × List Int)) (h : Stream n cs) : ∀ i ∈ drawn cs, 0 ≤ i ∧ i < n := by
  intro i hi
  simp only [drawn, List.mem_flatten, List.mem_map] at hi
  obtain ⟨l, ⟨c, hc, rfl⟩, hl⟩ := hi
  exact (h c hc).2 i hl

theorem assign_append {α : Type} : ∀ (is : List Nat) (xs : List α), is.length = xs.length → ∀ (arr : List α) (js : List Nat) (ys : List α),
    assign arr (is ++ js) (xs ++ ys) = assign (assign arr is xs) js ys
  | [], [], _, arr, js, ys => by simp [assign]
  | i :: is, x :: xs, h, arr, js, ys => by
    simp only [List.cons_append, assign]
    exact assign_append is xs (by simpa using h) _ js ys
  | [], _ :: _, h, _, _, _ => by simp at h
  | _ :: _, [], h, _, _, _ => by simp at h

theorem node_run {α : Type} (z : α) : ∀ (cs : List (List α × List Int)) (r : Res α), ResOk r → Stream r.nsamples cs → cs ≠ [] →
    ∃ r' : Res α, ResOk r' ∧ r'.nsamples = r.nsamples ∧
      r'.arr = some (assign (r.arr.getD (List.replicate r.nsamples z)) ((drawn cs).map Int.toNat) (rows cs)) ∧
      (∀ x, x ∈ r'.indices ↔ x ∈ r.indices ∨ x ∈ drawn cs) ∧
      node z r cs = emit r'.get
  | [], _, _, _, hne => absurd rfl hne
  | (c, d) :: rest, r, hr, hs, _ => by
    obtain ⟨hl, hd⟩ := hs (c, d) (by simp)
    simp only at hl hd
    obtain ⟨g1, g2, g3, -⟩ := C27_add z r hr c d hd
    obtain ⟨g4, g5, g6⟩ := g3 hl
    have e : r.add z c d = ((r.add z c d).1, .ok ()) := by rw [← g4]
    cases rest with
    | nil =>
      refine ⟨(r.add z c d).1, g1, g2, by simpa [drawn, rows] using g5, by simpa [drawn] using g6, ?_⟩
      unfold node
      rw [e]
      simp
    | cons c2 rest =>
      obtain ⟨r', h1, h2, h3, h4, h5⟩ := node_run z (c2 :: rest) (r.add z c d).1 g1 (by
        rw [g2]
        intro x hx
        exact hs x (by simp [hx])) (by simp)
      refine ⟨r', h1, h2.trans g2, ?_, ?_, ?_⟩
      · rw [h3, g5, Option.getD_some]
        congr 1
        simp only [drawn, rows, List.map_cons, List.flatten_cons, List.map_append]
        rw [assign_append (d.map Int.toNat) c (by simpa using hl)]
      · intro x
        rw [h4, g6]
        simp [drawn, or_assoc]
      · rw [← h5]
        conv_lhs => unfold node
        rw [e]
        simp

/-- The last row written to a slot is the one found there. -/
theorem last_written {α : Type} (arr : List α) (l : List (α × Nat)) : ∀ k : Nat, k ∈ l.map (·.2) → k < arr.length →
    ∃ j : Nat, (l.map (·.2))[j]? = some k ∧ (∀ i : Nat, j < i → (l.map (·.2))[i]? ≠ some k) ∧
      (assign arr (l.map (·.2)) (l.map (·.1)))[k]? = (l.map (·.1))[j]? := by
  induction l using List.reverseRecOn with
  | nil => intro k hk; simp at hk
  | append_singleton l p ih =>
    intro k hk hlt
    obtain ⟨x, d⟩ := p
    simp only [List.map_append, List.map_cons, List.map_nil]
    rw [assign_append _ _ (by simp)]
    simp only [assign]
    by_cases h : d = k
    · subst h
      refine ⟨l.length, by simp, ?_, ?_⟩
      · intro i hi
        rw [List.getElem?_eq_none (by simp; omega)]
        simp
      · rw [List.getElem?_set_self (by rw [assign_length]; exact hlt)]
        simp
    · have hk' : k ∈ l.map (·.2) := by
        simp only [List.map_append, List.map_cons, List.map_nil, List.mem_append, List.mem_singleton] at hk
        rcases hk with hk | hk
        · exact hk
        · exact absurd hk.symm h
      obtain ⟨j, e1, e2, e3⟩ := ih k hk' hlt
      have hj : j < (l.map (·.2)).length := (List.getElem?_eq_some_iff.1 e1).1
      refine ⟨j, by rw [List.getElem?_append_left hj]; exact e1, ?_, ?_⟩
      · intro i hi
        by_cases hil : i < (l.map (·.2)).length
        · rw [List.getElem?_append_left hil]
          exact e2 i hi
        · rw [List.getElem?_append_right (by omega)]
          intro hc
          have := List.mem_of_getElem? hc
          simp only [List.mem_singleton] at this
          exact h this.symm
      · rw [List.getElem?_set_ne h, e3, List.getElem?_append_left (by simpa using hj)]

/-- **C372**: over any stream of at least one chunk the node emits one array, with the last chunk.  It holds just the rows that drew a number no later row drew, each of them
once, in the order of these numbers. -/
theorem C372_exact {α : Type} (z : α) (n : Nat) (hn : 0 < n) (cs : List (List α × List Int)) (hne : cs ≠ []) (hs : Stream n cs) :
    ∃ (out : List α) (js : List Nat), shuffled z n cs = .ok [out] ∧ out.map some = js.map (fun j => (rows cs)[j]?) ∧ js.Nodup ∧ (∀ j, j ∈ js ↔ Kept (drawn cs) j) ∧
      (js.map fun j => (drawn cs).getD j 0).Pairwise (· < ·) := by
  have hnew : Res.new α (n : Int) = .ok ⟨n, none, []⟩ := by
    unfold Res.new
    rw [if_neg (by omega)]
    simp
  obtain ⟨r', h1, h2, h3, h4, h5⟩ := node_run z cs (⟨n, none, []⟩ : Res α) ⟨by simp, by simp, by simp⟩ hs hne
  obtain ⟨ks, out, g1, g2, g3, g4⟩ := C27_get r' h1 _ h3
  simp only [List.not_mem_nil, false_or] at h4
  have hlen := stream_length n cs hs
  have hrange := stream_range n cs hs
  have hkey : ∀ k ∈ ks, ∃ j : Nat, (drawn cs)[j]? = some (k : Int) ∧ (∀ i : Nat, j < i → (drawn cs)[i]? ≠ some (k : Int)) ∧
      (assign (List.replicate n z) ((drawn cs).map Int.toNat) (rows cs))[k]? = (rows cs)[j]? := by
    intro k hk
    have hk := (h4 _).1 ((g3 k).1 hk)
    have hz1 : ((rows cs).zip ((drawn cs).map Int.toNat)).map (·.2) = (drawn cs).map Int.toNat := by
      rw [List.map_snd_zip (by simp [hlen])]
    have hz2 : ((rows cs).zip ((drawn cs).map Int.toNat)).map (·.1) = rows cs := by
      rw [List.map_fst_zip (by simp [hlen])]
    obtain ⟨j, e1, e2, e3⟩ := last_written (List.replicate n z) ((rows cs).zip ((drawn cs).map Int.toNat)) k (by
      rw [hz1, List.mem_map]
      exact ⟨k, hk, by simp⟩) (by have := (hrange _ hk).2; simpa using this)
    rw [hz1] at e1 e2
    rw [hz1, hz2] at e3
    have conv : ∀ i : Nat, ((drawn cs).map Int.toNat)[i]? = some k ↔ (drawn cs)[i]? = some (k : Int) := by
      intro i
      rw [List.getElem?_map, Option.map_eq_some_iff]
      constructor
      · rintro ⟨a, ha, hak⟩
        have := (hrange a (List.mem_of_getElem? ha)).1
        rw [ha]
        congr 1
        omega
      · intro h
        exact ⟨k, h, by simp⟩
    exact ⟨j, (conv j).1 e1, fun i hi hc => e2 i hi ((conv i).2 hc), e3⟩
  choose! last l1 l2 l3 using hkey
  refine ⟨out, ks.map last, ?_, ?_, ?_, ?_, ?_⟩
  · unfold shuffled
    rw [hnew]
    simp only [h5, g1, emit]
  · rw [g4, List.map_map]
    apply List.map_congr_left
    intro k hk
    exact l3 k hk
  · refine List.Nodup.map_on ?_ (g2.imp fun h => (Nat.ne_of_lt h))
    intro a ha b hb hab
    have e1 := l1 a ha
    rw [hab, l1 b hb] at e1
    injection e1 with e1
    omega
  · intro j
    rw [List.mem_map]
    constructor
    · rintro ⟨k, hk, rfl⟩
      exact ⟨k, l1 k hk, l2 k hk⟩
    · rintro ⟨k, hk, hlast⟩
      have hr := hrange k (List.mem_of_getElem? hk)
      have hkn : ((k.toNat : Nat) : Int) = k := by omega
      have hmem : k.toNat ∈ ks := by
        rw [g3, hkn, h4]
        exact List.mem_of_getElem? hk
      refine ⟨k.toNat, hmem, ?_⟩
      have a1 := l1 _ hmem
      have a2 := l2 _ hmem
      rw [hkn] at a1 a2
      rcases lt_trichotomy (last k.toNat) j with h | h | h
      · exact absurd hk (a2 j h)
      · exact h
      · exact absurd a1 (hlast _ h)
  · rw [List.map_map]
    rw [List.pairwise_map]
    refine g2.imp_of_mem ?_
    intro a b ha hb hab
    simp only [Function.comp, List.getD_eq_getElem?_getD, l1 a ha, l1 b hb, Option.getD_some]
    exact_mod_cast hab

/-- Two chunks, of which the third row goes where the first was. -/
def threeRows : List (List Nat × List Int) := [([10, 20], [1, 0]), ([30], [1])]

theorem three_stream : Stream 4 threeRows := by
  intro c hc
  simp only [threeRows, List.mem_cons, List.not_mem_nil, or_false] at hc
  rcases hc with rfl | rfl
  · exact ⟨rfl, by decide⟩
  · exact ⟨rfl, by decide⟩

example := C372_exact 0 4 (by decide) threeRows (by decide) three_stream
example : shuffled 0 4 threeRows = .ok [[20, 30]] := by decide +kernel

/-- **C372** (how many): as many rows as different numbers were drawn, at least one of a stream with rows, at most `nsamples` and at most those of the stream; all rows of the stream just if
no number was drawn twice. The last row of the stream is always there. -/
theorem C372_size {α : Type} (z : α) (n : Nat) (hn : 0 < n) (cs : List (List α × List Int)) (hne : cs ≠ []) (hs : Stream n cs) :
    ∃ out, shuffled z n cs = .ok [out] ∧ out.length = (drawn cs).dedup.length ∧ out.length ≤ n ∧ out.length ≤ (rows cs).length ∧
      (∀ x ∈ out, x ∈ rows cs) ∧ (∀ x, (rows cs).getLast? = some x → x ∈ out) ∧
      (out.length = (rows cs).length ↔ (drawn cs).Nodup) ∧ ((drawn cs).Nodup → out.Perm (rows cs)) := by
  obtain ⟨out, js, h1, h2, h3, h4, h5⟩ := C372_exact z n hn cs hne hs
  have hlen := stream_length n cs hs
  have hrange := stream_range n cs hs
  have hjs : out.length = js.length := by simpa using congrArg List.length h2
  have hds : (js.map fun j => (drawn cs).getD j 0).Perm (drawn cs).dedup := by
    rw [List.perm_ext_iff_of_nodup (h5.imp fun h => (ne_of_lt h)) (List.nodup_dedup _)]
    intro k
    rw [List.mem_map, List.mem_dedup]
    constructor
    · rintro ⟨j, hj, rfl⟩
      obtain ⟨k, hk, -⟩ := (h4 j).1 hj
      rw [List.getD_eq_getElem?_getD, hk]
      exact List.mem_of_getElem? hk
    · intro hk
      have : ∀ (l : List Int), k ∈ l → ∃ j, Kept l j ∧ l[j]? = some k := by
        intro l
        induction l using List.reverseRecOn with
        | nil => intro h; simp at h
        | append_singleton l d ih =>
          intro h
          by_cases hd : d = k
          · subst hd
            have e : (l ++ [d])[l.length]? = some d := by simp
            refine ⟨l.length, ⟨d, e, ?_⟩, e⟩
            intro i hi
            rw [List.getElem?_eq_none (by simp; omega)]
            simp
          · obtain ⟨j, ⟨k', e1, e2⟩, e3⟩ := ih (by
              rcases List.mem_append.1 h with h | h
              · exact h
              · exact absurd (List.mem_singleton.1 h).symm hd)
            rw [e1] at e3
            cases e3
            have hj := (List.getElem?_eq_some_iff.1 e1).1
            refine ⟨j, ⟨k, by rw [List.getElem?_append_left hj]; exact e1, ?_⟩, by rw [List.getElem?_append_left hj]; exact e1⟩
            intro i hi
            by_cases hil : i < l.length
            · rw [List.getElem?_append_left hil]
              exact e2 i hi
            · rw [List.getElem?_append_right (by omega)]
              intro hc
              have := List.mem_of_getElem? hc
              simp only [List.mem_singleton] at this
              exact hd this.symm
      obtain ⟨j, hj, hjk⟩ := this _ hk
      exact ⟨j, (h4 j).2 hj, by rw [List.getD_eq_getElem?_getD, hjk]; rfl⟩
  have hl : out.length = (drawn cs).dedup.length := by rw [hjs, ← hds.length_eq]; simp
  have hle : (drawn cs).dedup.length ≤ n := by
    have h6 : ((drawn cs).dedup.map Int.toNat).Nodup := by
      refine List.Nodup.map_on ?_ (List.nodup_dedup _)
      intro a ha b hb hab
      have := hrange a (List.mem_dedup.1 ha)
      have := hrange b (List.mem_dedup.1 hb)
      omega
    have h7 : ((drawn cs).dedup.map Int.toNat) ⊆ List.range n := by
      intro a ha
      obtain ⟨b, hb, rfl⟩ := List.mem_map.1 ha
      have := hrange b (List.mem_dedup.1 hb)
      exact List.mem_range.2 (by omega)
    have := (List.subperm_of_subset h6 h7).length_le
    simpa using this
  have hle2 : (drawn cs).dedup.length ≤ (rows cs).length := by
    rw [← hlen]
    exact (List.dedup_sublist _).length_le
  have hmem : ∀ j, Kept (drawn cs) j → ∀ x, (rows cs)[j]? = some x → x ∈ out := by
    intro j hj x hx
    have : some x ∈ out.map some := by
      rw [h2, List.mem_map]
      exact ⟨j, (h4 j).2 hj, hx⟩
    simpa using this
  have hall : (drawn cs).Nodup → out.Perm (rows cs) := by
    intro hnd
    have hperm : js.Perm (List.range (rows cs).length) := by
      rw [List.perm_ext_iff_of_nodup h3 List.nodup_range]
      intro j
      rw [h4, List.mem_range, ← hlen]
      constructor
      · rintro ⟨k, hk, -⟩
        exact (List.getElem?_eq_some_iff.1 hk).1
      · intro hj
        refine ⟨_, List.getElem?_eq_getElem hj, ?_⟩
        intro i hi hc
        obtain ⟨hil, e⟩ := List.getElem?_eq_some_iff.1 hc
        have := (List.nodup_iff_injective_get.1 hnd) (a₁ := ⟨i, hil⟩) (a₂ := ⟨j, hj⟩) e
        simp only [Fin.mk.injEq] at this
        omega
    have h8 : (out.map some).Perm ((rows cs).map some) := by
      rw [h2]
      refine (hperm.map _).trans ?_
      apply List.Perm.of_eq
      apply List.ext_getElem (by simp)
      intro i a1 a2
      simp at a1
      simp [a1]
    have h9 := h8.filterMap id
    simpa [List.filterMap_map] using h9
  refine ⟨out, h1, hl, by omega, by omega, ?_, ?_, ?_, hall⟩
  · intro x hx
    have : some x ∈ out.map some := List.mem_map_of_mem hx
    rw [h2, List.mem_map] at this
    obtain ⟨j, -, hj⟩ := this
    exact List.mem_of_getElem? hj
  · intro x hx
    rw [List.getLast?_eq_getElem?] at hx
    refine hmem _ ?_ x hx
    have hlt := (List.getElem?_eq_some_iff.1 hx).1
    refine ⟨_, List.getElem?_eq_getElem (by omega), ?_⟩
    intro i hi
    rw [List.getElem?_eq_none (by omega)]
    simp
  · constructor
    · intro h
      rw [hl, ← hlen] at h
      rw [← List.dedup_eq_self]
      exact (List.dedup_sublist _).eq_of_length h
    · intro h
      exact (hall h).length_eq

example := C372_size 0 4 (by decide) threeRows (by decide) three_stream

/-- Refuted: that a reservoir at least as large as the data holds all of it: however large it is, two rows may draw the same number, and then one is gone. -/
theorem C372_refuted {α : Type} (z a b : α) (n : Nat) (hn : 0 < n) : shuffled z n [([a, b], [0, 0])] = .ok [[b]] := by
  obtain ⟨out, js, h1, h2, h3, h4, h5⟩ := C372_exact z n hn [([a, b], [0, 0])] (by simp) (by
    intro c hc
    simp only [List.mem_singleton] at hc
    subst hc
    refine ⟨rfl, ?_⟩
    intro i hi
    simp at hi
    omega)
  rw [h1]
  have hk : ∀ j, Kept (drawn [([a, b], [0, 0])]) j ↔ j = 1 := by
    intro j
    simp only [drawn, List.map_cons, List.map_nil, List.flatten_cons, List.flatten_nil, List.append_nil]
    constructor
    · rintro ⟨k, hk, hl⟩
      match j with
      | 0 => simp at hk; exact absurd (by rw [← hk]; rfl) (hl 1 (by decide))
      | 1 => rfl
      | j + 2 => simp at hk
    · rintro rfl
      refine ⟨0, rfl, ?_⟩
      intro i hi
      rw [List.getElem?_eq_none (by simp; omega)]
      simp
  have hjs : js = [1] := by
    apply List.perm_singleton.1
    rw [List.perm_ext_iff_of_nodup h3 (by simp)]
    intro j
    rw [h4, hk]
    simp
  rw [hjs] at h2
  have : out.map some = [b].map some := by simpa [rows] using h2
  rw [List.map_inj_right (fun _ _ h => Option.some.inj h)] at this
  rw [this]

example := C372_refuted 0 1 2 100 (by decide)

/-- No sampler of no samples. -/
theorem C372_none {α : Type} (z : α) (n : Int) (h : n ≤ 0) (cs : List (List α × List Int)) : shuffled z n cs = .error .valueError := by
  simp [shuffled, Res.new, h]

example := C372_none 0 0 (by decide) threeRows

/-! ## C373: which rows are likely to be kept -/

/-- All sequences of `m` numbers below `n`, each of which numpy's generator draws with the same probability. -/
def allDraws (n : Nat) : Nat → List (List Int)
  | 0 => [[]]
  | m + 1 => (allDraws n m).flatMap fun ds => (List.range n).map fun (d : Nat) => ds ++ [(d : Int)]

theorem allDraws_length (n : Nat) : ∀ m, (allDraws n m).length = n ^ m
  | 0 => rfl
  | m + 1 => by
    simp only [allDraws, List.length_flatMap, List.length_map, List.length_range, List.map_const', List.sum_replicate_nat, allDraws_length n m]
    rw [pow_succ]

theorem draws_size (n : Nat) : ∀ m, ∀ ds ∈ allDraws n m, ds.length = m ∧ ∀ d ∈ ds, 0 ≤ d ∧ d < (n : Int)
  | 0 => by simp [allDraws]
  | m + 1 => by
    intro ds hds
    simp only [allDraws, List.mem_flatMap, List.mem_map, List.mem_range] at hds
    obtain ⟨es, he, d, hd, rfl⟩ := hds
    obtain ⟨h1, h2⟩ := draws_size n m es he
    refine ⟨by simp [h1], ?_⟩
    intro x hx
    rcases List.mem_append.1 hx with hx | hx
    · exact h2 x hx
    · simp only [List.mem_singleton] at hx
      omega

instance (ds : List Int) (j : Nat) : Decidable (Kept ds j) :=
  decidable_of_iff (∃ h : j < ds.length, ∀ i : Fin ds.length, j < i.1 → ds[i.1] ≠ ds[j]) (by
    constructor
    · rintro ⟨h, hl⟩
      refine ⟨ds[j], List.getElem?_eq_getElem h, ?_⟩
      intro i hi hc
      obtain ⟨hil, e⟩ := List.getElem?_eq_some_iff.1 hc
      exact hl ⟨i, hil⟩ hi e
    · rintro ⟨k, hk, hl⟩
      obtain ⟨h, e⟩ := List.getElem?_eq_some_iff.1 hk
      refine ⟨h, ?_⟩
      intro i hi hc
      refine hl i.1 hi ?_
      rw [List.getElem?_eq_getElem i.2, hc, e])

theorem kept_snoc (ds : List Int) (d : Int) (j : Nat) (hj : j < ds.length) : Kept (ds ++ [d]) j ↔ Kept ds j ∧ d ≠ ds[j] := by
  have e : ds[j]? = some ds[j] := List.getElem?_eq_getElem hj
  constructor
  · rintro ⟨k, hk, hl⟩
    rw [List.getElem?_append_left hj, e] at hk
    cases hk
    refine ⟨⟨_, e, ?_⟩, ?_⟩
    · intro i hi hc
      have := (List.getElem?_eq_some_iff.1 hc).1
      exact hl i hi (by rw [List.getElem?_append_left this]; exact hc)
    · rintro rfl
      exact hl ds.length hj (by simp)
  · rintro ⟨⟨k, hk, hl⟩, hd⟩
    rw [e] at hk
    cases hk
    refine ⟨_, by rw [List.getElem?_append_left hj]; exact e, ?_⟩
    intro i hi hc
    by_cases hil : i < ds.length
    · rw [List.getElem?_append_left hil] at hc
      exact hl i hi hc
    · rw [List.getElem?_append_right (by omega)] at hc
      have := List.mem_of_getElem? hc
      simp only [List.mem_singleton] at this
      exact hd this.symm

theorem kept_last (ds : List Int) (d : Int) : Kept (ds ++ [d]) ds.length := by
  refine ⟨d, by simp, ?_⟩
  intro i hi
  rw [List.getElem?_eq_none (by simp; omega)]
  simp

theorem count_others (n : Nat) (x : Int) (h0 : 0 ≤ x) (h1 : x < n) : (List.range n).countP (fun (d : Nat) => decide ((d : Int) ≠ x)) = n - 1 := by
  have h := List.length_eq_countP_add_countP (fun d : Nat => decide ((d : Int) ≠ x)) (l := List.range n)
  have h2 : (List.range n).countP (fun (d : Nat) => decide ¬ decide ((d : Int) ≠ x) = true) = 1 := by
    have e : (List.range n).countP (fun (d : Nat) => decide ¬ decide ((d : Int) ≠ x) = true) = (List.range n).count x.toNat := by
      unfold List.count
      apply List.countP_congr
      intro d _
      simp
      omega
    rw [e]
    exact List.count_eq_one_of_mem List.nodup_range (List.mem_range.2 (by omega))
  rw [h2, List.length_range] at h
  omega

/-- **C373**: of the `n ^ m` ways to draw slots for the `m` rows of a stream, row `j` is kept in exactly `n ^ (j + 1) * (n - 1) ^ (m - 1 - j)`: with probability
`(1 - 1 / n) ^ (m - 1 - j)`, one for the last row and the less the earlier it came. -/
theorem C373_kept (n m j : Nat) (hj : j < m) :
    (allDraws n m).length = n ^ m ∧
    (allDraws n m).countP (fun ds => decide (Kept ds j)) = n ^ (j + 1) * (n - 1) ^ (m - 1 - j) := by
  refine ⟨allDraws_length n m, ?_⟩
  induction m with
  | zero => omega
  | succ m ih =>
    simp only [allDraws, List.countP_flatMap]
    by_cases h : j < m
    · have e : ∀ ds ∈ allDraws n m, ((List.countP fun ds => decide (Kept ds j)) ∘ fun ds => (List.range n).map fun (d : Nat) => ds ++ [(d : Int)]) ds =
          if decide (Kept ds j) = true then n - 1 else 0 := by
        intro ds hds
        obtain ⟨hl, hr⟩ := draws_size n m ds hds
        simp only [Function.comp, List.countP_map]
        have hj' : j < ds.length := by omega
        split
        · rename_i hk
          have hk := of_decide_eq_true hk
          rw [← count_others n ds[j] (hr _ (List.getElem_mem hj')).1 (hr _ (List.getElem_mem hj')).2]
          apply List.countP_congr
          intro d _
          simp only [Function.comp, decide_eq_true_eq]
          rw [kept_snoc ds d j hj']
          simp [hk]
        · rename_i hk
          apply List.countP_eq_zero.2
          intro d _
          simp only [Function.comp, decide_eq_true_eq] at hk ⊢
          rw [kept_snoc ds d j hj']
          exact fun h => hk h.1
      rw [List.map_congr_left e]
      have : ∀ l : List (List Int), (l.map fun ds => if decide (Kept ds j) = true then n - 1 else 0).sum = l.countP (fun ds => decide (Kept ds j)) * (n - 1) := by
        intro l
        induction l with
        | nil => simp
        | cons d l ih =>
          simp only [List.map_cons, List.sum_cons, ih, List.countP_cons]
          split <;> ring
      rw [this, ih h, mul_assoc, ← pow_succ]
      congr 2
      omega
    · have hjm : j = m := by omega
      subst hjm
      have e : ∀ ds ∈ allDraws n j, ((List.countP fun ds => decide (Kept ds j)) ∘ fun ds => (List.range n).map fun (d : Nat) => ds ++ [(d : Int)]) ds = n := by
        intro ds hds
        obtain ⟨hl, hr⟩ := draws_size n j ds hds
        simp only [Function.comp, List.countP_map]
        rw [List.countP_eq_length.2]
        · simp
        · intro d _
          simp only [Function.comp, decide_eq_true_eq]
          have := kept_last ds d
          rw [hl] at this
          exact this
      rw [List.map_congr_left e]
      simp [allDraws_length, pow_succ]

example := C373_kept 5 3 1 (by decide)

/-- Refuted: that the rows kept are a fair sample: whenever there is more than one slot, a row is kept in fewer of the ways to draw than the next one. -/
theorem C373_refuted (n m j : Nat) (hn : 2 ≤ n) (hj : j + 1 < m) :
    (allDraws n m).countP (fun ds => decide (Kept ds j)) < (allDraws n m).countP (fun ds => decide (Kept ds (j + 1))) := by
  rw [(C373_kept n m j (by omega)).2, (C373_kept n m (j + 1) hj).2, show m - 1 - j = m - 1 - (j + 1) + 1 by omega, pow_succ (n - 1), pow_succ n (j + 1), mul_assoc]
  have h1 : 0 < n ^ (j + 1) := Nat.pow_pos (by omega)
  have h2 : 0 < (n - 1) ^ (m - 1 - (j + 1)) := Nat.pow_pos (by omega)
  apply Nat.mul_lt_mul_of_pos_left _ h1
  rw [mul_comm]
  exact Nat.mul_lt_mul_of_pos_right (by omega) h2

example := C373_refuted 2 3 1 (by decide) (by decide)

end Zounds.Shuffled
