import Verif.Model.MuxThreads
import Verif.Props.Sampler

/-!
# C376: do the parts of an example stay together?
-/

namespace Zounds.MuxThreads
open Zounds Zounds.Reservoir

/-- A thread about to add examples: its keys are distinct, and for each there are as many rows as slots. -/
def Sound {κ α : Type} (n : Nat) (t : Adder κ α) : Prop :=
  (t.todo.map (·.1)).Nodup ∧ (∀ p ∈ t.todo, p.2.length = t.slots.length) ∧ ∀ k ∈ t.slots, k < n

/-- The `j`-th example of a thread: for every key its `j`-th row. -/
def ExampleOf {κ α : Type} (t : Adder κ α) (j : Nat) (e : κ → α) : Prop := ∀ p ∈ t.todo, p.2[j]? = some (e p.1)

/-- Slot `k` holds example `e`: under every key its part. -/
def Holds {κ α : Type} (keys : List κ) (arrs : κ → List α) (k : Nat) (e : κ → α) : Prop := ∀ q ∈ keys, (arrs q)[k]? = some (e q)

/-- Which row is at a slot after an assignment depends on the slots only. -/
theorem written {α : Type} (is : List Nat) (k : Nat) (hk : k ∈ is) :
    ∃ j : Nat, is[j]? = some k ∧ ∀ (arr xs : List α), xs.length = is.length → k < arr.length → (assign arr is xs)[k]? = xs[j]? := by
  classical
  obtain ⟨j, h1, h2⟩ : ∃ j : Nat, is[j]? = some k ∧ ∀ i : Nat, j < i → is[i]? ≠ some k := by
    clear α
    induction is with
    | nil => simp at hk
    | cons a is ih =>
      by_cases hm : k ∈ is
      · obtain ⟨j, h1, h2⟩ := ih hm
        refine ⟨j + 1, by simpa using h1, ?_⟩
        intro i hi
        cases i with
        | zero => omega
        | succ i => simpa using h2 i (by omega)
      · have ha : k = a := by
          rcases List.mem_cons.1 hk with h | h
          · exact h
          · exact absurd h hm
        refine ⟨0, by simp [ha], ?_⟩
        intro i hi
        cases i with
        | zero => omega
        | succ i =>
          intro hc
          exact hm (List.mem_of_getElem? (by simpa using hc))
  refine ⟨j, h1, ?_⟩
  intro arr xs hl hlt
  have e1 : (xs.zip is).map (·.2) = is := List.map_snd_zip (by omega)
  have e2 : (xs.zip is).map (·.1) = xs := List.map_fst_zip (by omega)
  obtain ⟨j', g1, g2, g3⟩ := Shuffled.last_written arr (xs.zip is) k (by rw [e1]; exact hk) hlt
  rw [e1] at g1 g2 g3
  rw [e2] at g3
  have : j' = j := by
    rcases Nat.lt_trichotomy j' j with h | h | h
    · exact absurd h1 (g2 j h)
    · exact h
    · exact absurd g1 (h2 j' h)
  rw [g3, this]

/-! ## One thread per slot -/

/-- What slot `k` holds while thread `i`, which alone writes there, is at work. -/
structure Apart {κ α : Type} (n : Nat) (arrs0 : κ → List α) (t : Adder κ α) (i k : Nat) (w : World κ α) : Prop where
  size : ∀ q, (w.arrs q).length = n
  mine : ∃ done rest, t.todo = done ++ rest ∧ w.threads[i]? = some ⟨t.slots, rest⟩ ∧ (∀ p ∈ done, (w.arrs p.1)[k]? = (assign (arrs0 p.1) t.slots p.2)[k]?) ∧
    ∀ q, q ∉ done.map (·.1) → (w.arrs q)[k]? = (arrs0 q)[k]?
  others : ∀ j u, j ≠ i → w.threads[j]? = some u → k ∉ u.slots
  sound : ∀ u ∈ w.threads, Sound n u

theorem apart_step {κ α : Type} [DecidableEq κ] (n : Nat) (arrs0 : κ → List α) (t : Adder κ α) (ht : (t.todo.map (·.1)).Nodup) (hlen : ∀ p ∈ t.todo, p.2.length = t.slots.length)
    (h0 : ∀ q, (arrs0 q).length = n) (i k : Nat) (w : World κ α)
    (h : Apart n arrs0 t i k w) (m : Nat) : Apart n arrs0 t i k (step w m) := by
  unfold step
  split
  · exact h
  rename_i u hu
  split
  · exact h
  rename_i q rows rest hrest
  have hsu := h.sound u (List.mem_of_getElem? hu)
  have hsize : ∀ p, (put w.arrs u.slots q rows p).length = n := by
    intro p
    unfold put
    split
    · rw [assign_length]; exact h.size p
    · exact h.size p
  have hsound : ∀ v ∈ w.threads.set m ⟨u.slots, rest⟩, Sound n v := by
    intro v hv
    rcases List.mem_or_eq_of_mem_set hv with hv | rfl
    · exact h.sound v hv
    · refine ⟨?_, ?_, hsu.2.2⟩
      · have := hsu.1
        rw [hrest] at this
        exact (List.nodup_cons.1 this).2
      · intro p hp
        exact hsu.2.1 p (by rw [hrest]; simp [hp])
  obtain ⟨done, left, e1, e2, e3, e4⟩ := h.mine
  have hqlen : rows.length = u.slots.length := hsu.2.1 (q, rows) (by rw [hrest]; simp)
  by_cases hmi : m = i
  · subst hmi
    rw [e2] at hu
    obtain rfl := Option.some.inj hu
    simp only at hrest
    subst hrest
    have hnd : q ∉ done.map (·.1) := by
      rw [e1, List.map_append, List.map_cons] at ht
      intro hc
      have := (List.nodup_append.1 ht).2.2 q hc q (by simp)
      exact this rfl
    refine ⟨hsize, ⟨done ++ [(q, rows)], rest, by simp [e1], ?_, ?_, ?_⟩, ?_, hsound⟩
    · exact List.getElem?_set_self (List.getElem?_eq_some_iff.1 e2).1
    · intro p hp
      have hold := e4 q hnd
      rcases List.mem_append.1 hp with hp | hp
      · have hne : p.1 ≠ q := fun hc => hnd (by rw [← hc]; exact List.mem_map_of_mem hp)
        simp only [put, if_neg hne]
        exact e3 p hp
      · rw [List.mem_singleton] at hp
        subst hp
        simp only [put, if_true]
        by_cases hk : k ∈ t.slots
        · by_cases hkn : k < n
          · obtain ⟨j, -, g⟩ := written (α := α) t.slots k hk
            rw [g _ _ hqlen (by rw [h.size]; exact hkn), g _ _ hqlen (by rw [h0]; exact hkn)]
          · rw [List.getElem?_eq_none (by rw [assign_length, h.size]; omega), List.getElem?_eq_none (by rw [assign_length, h0]; omega)]
        · rw [(Sampler.assign_at k t.slots rows _ hqlen.symm).2 hk, (Sampler.assign_at k t.slots rows _ hqlen.symm).2 hk]
          exact hold
    · intro p hp
      simp only [List.map_append, List.map_cons, List.map_nil, List.mem_append, List.mem_singleton, not_or] at hp
      simp only [put, if_neg hp.2]
      exact e4 p hp.1
    · intro j v hj hv
      simp only at hv
      rw [List.getElem?_set_ne (Ne.symm hj)] at hv
      exact h.others j v hj hv
  · have hk : k ∉ u.slots := h.others m u hmi hu
    have hsame : ∀ p, (put w.arrs u.slots q rows p)[k]? = (w.arrs p)[k]? := by
      intro p
      unfold put
      split
      · exact (Sampler.assign_at k u.slots rows _ hqlen.symm).2 hk
      · rfl
    refine ⟨hsize, ⟨done, left, e1, ?_, ?_, ?_⟩, ?_, hsound⟩
    · simp only
      rw [List.getElem?_set_ne hmi]
      exact e2
    · intro p hp
      simp only
      rw [hsame]
      exact e3 p hp
    · intro p hp
      simp only
      rw [hsame]
      exact e4 p hp
    · intro j v hj hv
      by_cases hjm : j = m
      · subst hjm
        simp only at hv
        rw [List.getElem?_set_self (List.getElem?_eq_some_iff.1 hu).1] at hv
        obtain rfl := Option.some.inj hv
        exact hk
      · simp only at hv
        rw [List.getElem?_set_ne (Ne.symm hjm)] at hv
        exact h.others j v hj hv

theorem apart_run {κ α : Type} [DecidableEq κ] (n : Nat) (arrs0 : κ → List α) (t : Adder κ α) (ht : (t.todo.map (·.1)).Nodup) (hlen : ∀ p ∈ t.todo, p.2.length = t.slots.length)
    (h0 : ∀ q, (arrs0 q).length = n) (i k : Nat) : ∀ (is : List Nat) (w : World κ α), Apart n arrs0 t i k w → Apart n arrs0 t i k (run w is)
  | [], _, h => h
  | m :: is, w, h => apart_run n arrs0 t ht hlen h0 i k is _ (apart_step n arrs0 t ht hlen h0 i k w h m)

/-- **C376**: in whatever order threads add their examples, a slot which only one of them has drawn holds, once that thread is done, one example of that thread: under every key the row of the
same example. -/
theorem C376_alone {κ α : Type} [DecidableEq κ] (n : Nat) (arrs : κ → List α) (hsize : ∀ q, (arrs q).length = n) (ts : List (Adder κ α)) (hts : ∀ t ∈ ts, Sound n t)
    (i : Nat) (t : Adder κ α) (hi : ts[i]? = some t) (k : Nat) (hk : k ∈ t.slots) (hothers : ∀ j u, j ≠ i → ts[j]? = some u → k ∉ u.slots)
    (is : List Nat) (hdone : (run ⟨arrs, ts⟩ is).threads[i]? = some ⟨t.slots, []⟩) :
    ∃ j : Nat, t.slots[j]? = some k ∧ ∀ e, ExampleOf t j e → Holds (t.todo.map (·.1)) (run ⟨arrs, ts⟩ is).arrs k e := by
  obtain ⟨s1, s2, s3⟩ := hts t (List.mem_of_getElem? hi)
  have h := apart_run n arrs t s1 s2 hsize i k is ⟨arrs, ts⟩ ⟨hsize, ⟨[], t.todo, rfl, hi, by simp, by simp⟩, hothers, hts⟩
  obtain ⟨done, rest, e1, e2, e3, -⟩ := h.mine
  rw [hdone] at e2
  have hrest : rest = [] := by
    have := Option.some.inj e2
    exact (Adder.mk.inj this).2.symm
  subst hrest
  rw [List.append_nil] at e1
  obtain ⟨j, g1, g2⟩ := written (α := α) t.slots k hk
  refine ⟨j, g1, ?_⟩
  intro e he q hq
  obtain ⟨p, hp, rfl⟩ := List.mem_map.1 hq
  rw [e3 p (by rw [← e1]; exact hp), g2 _ _ (s2 p hp) (by rw [hsize]; exact s3 k hk)]
  exact he p hp

/-! ## One thread after the other -/

/-- Every thread does all its work at its turn. -/
def inTurn {κ α : Type} (ts : List (Adder κ α)) (order : List Nat) : List Nat :=
  order.flatMap fun i => List.replicate ((ts[i]?.map fun t => t.todo.length).getD 0) i

theorem run_append {κ α : Type} [DecidableEq κ] : ∀ (is js : List Nat) (w : World κ α), run w (is ++ js) = run (run w is) js
  | [], _, _ => rfl
  | i :: is, js, w => run_append is js (step w i)

/-- A thread's work. -/
theorem turn {κ α : Type} [DecidableEq κ] (n : Nat) (slots : List Nat) (k i : Nat) : ∀ (todo : List (κ × List α)) (w : World κ α), w.threads[i]? = some ⟨slots, todo⟩ →
    Sound n (⟨slots, todo⟩ : Adder κ α) → (∀ q, (w.arrs q).length = n) →
    (run w (List.replicate todo.length i)).threads = w.threads.set i ⟨slots, []⟩ ∧ (∀ q, ((run w (List.replicate todo.length i)).arrs q).length = n) ∧
      (∀ p ∈ todo, (run w (List.replicate todo.length i)).arrs p.1 = assign (w.arrs p.1) slots p.2) ∧
      ∀ q, q ∉ todo.map (·.1) → (run w (List.replicate todo.length i)).arrs q = w.arrs q
  | [], w, hw, _, hs => by
    refine ⟨?_, hs, by simp, fun q _ => rfl⟩
    simp only [List.length_nil, List.replicate_zero, run]
    obtain ⟨hlt, hge⟩ := List.getElem?_eq_some_iff.1 hw
    rw [← hge, List.set_getElem_self hlt]
  | (q, rows) :: todo, w, hw, hsd, hs => by
    obtain ⟨s1, s2, s3⟩ := hsd
    rw [List.map_cons, List.nodup_cons] at s1
    have hlt := (List.getElem?_eq_some_iff.1 hw).1
    have e : step w i = ⟨put w.arrs slots q rows, w.threads.set i ⟨slots, todo⟩⟩ := by simp [step, hw]
    have hput : ∀ p, (put w.arrs slots q rows p).length = n := by
      intro p
      unfold put
      split
      · rw [assign_length]; exact hs p
      · exact hs p
    obtain ⟨g1, g2, g3, g4⟩ := turn n slots k i todo ⟨put w.arrs slots q rows, w.threads.set i ⟨slots, todo⟩⟩ (List.getElem?_set_self hlt)
      ⟨s1.2, fun p hp => s2 p (by simp [hp]), s3⟩ hput
    simp only [List.length_cons, List.replicate_succ, run]
    rw [e]
    refine ⟨by rw [g1]; simp, g2, ?_, ?_⟩
    · intro p hp
      rcases List.mem_cons.1 hp with rfl | hp
      · rw [g4 q s1.1]
        simp [put]
      · rw [g3 p hp]
        have hne : p.1 ≠ q := by
          intro hc
          apply s1.1
          exact List.mem_map.2 ⟨p, hp, hc⟩
        simp [put, hne]
    · intro p hp
      simp only [List.map_cons, List.mem_cons, not_or] at hp
      rw [g4 p hp.2]
      simp [put, hp.1]

/-- Every slot holds an example: one of these. -/
def Whole {κ α : Type} (keys : List κ) (E : (κ → α) → Prop) (n : Nat) (arrs : κ → List α) : Prop := ∀ k, k < n → ∃ e, E e ∧ Holds keys arrs k e

theorem serial {κ α : Type} [DecidableEq κ] (n : Nat) (keys : List κ) (E : (κ → α) → Prop) (ts : List (Adder κ α)) (hts : ∀ t ∈ ts, Sound n t)
    (hkeys : ∀ t ∈ ts, ∀ q, q ∈ t.todo.map (·.1) ↔ q ∈ keys)
    (hE : ∀ t ∈ ts, ∀ j, j < t.slots.length → ∃ e, E e ∧ ExampleOf t j e) : ∀ (order : List Nat) (w : World κ α), order.Nodup →
    (∀ i ∈ order, w.threads[i]? = ts[i]?) → (∀ q, (w.arrs q).length = n) → Whole keys E n w.arrs → Whole keys E n (run w (inTurn ts order)).arrs
  | [], _, _, _, _, h => h
  | i :: order, w, hnd, hw, hs, h => by
    have hsplit : inTurn ts (i :: order) = List.replicate ((ts[i]?.map fun t => t.todo.length).getD 0) i ++ inTurn ts order := rfl
    rw [hsplit, run_append]
    rw [List.nodup_cons] at hnd
    cases hti : ts[i]? with
    | none =>
      simp only [Option.map_none, Option.getD_none, List.replicate_zero, run]
      exact serial n keys E ts hts hkeys hE order w hnd.2 (fun j hj => hw j (by simp [hj])) hs h
    | some t =>
      have hm := List.mem_of_getElem? hti
      have hwi : w.threads[i]? = some ⟨t.slots, t.todo⟩ := by rw [hw i (by simp), hti]
      simp only [Option.map_some, Option.getD_some]
      obtain ⟨g1, g2, g3, -⟩ := turn n t.slots 0 i t.todo w hwi (hts t hm) hs
      apply serial n keys E ts hts hkeys hE order _ hnd.2 _ g2
      · intro k hk
        by_cases hks : k ∈ t.slots
        · obtain ⟨j, a1, a2⟩ := written (α := α) t.slots k hks
          obtain ⟨e, b1, b2⟩ := hE t hm j (List.getElem?_eq_some_iff.1 a1).1
          refine ⟨e, b1, ?_⟩
          intro q hq
          obtain ⟨p, hp, rfl⟩ := List.mem_map.1 ((hkeys t hm q).2 hq)
          rw [g3 p hp, a2 _ _ ((hts t hm).2.1 p hp) (by rw [hs]; exact hk)]
          exact b2 p hp
        · obtain ⟨e, b1, b2⟩ := h k hk
          refine ⟨e, b1, ?_⟩
          intro q hq
          obtain ⟨p, hp, rfl⟩ := List.mem_map.1 ((hkeys t hm q).2 hq)
          rw [g3 p hp, (Sampler.assign_at k t.slots p.2 _ ((hts t hm).2.1 p hp).symm).2 hks]
          exact b2 _ hq
      · intro j hj
        rw [g1, List.getElem?_set_ne (fun hc => hnd.1 (by rw [hc]; exact hj))]
        exact hw j (by simp [hj])

/-- One thread after the other, in any order: if every slot held a whole example it does afterwards, one it held or one of a thread. -/
theorem C376_in_turn {κ α : Type} [DecidableEq κ] (n : Nat) (keys : List κ) (arrs : κ → List α) (hsize : ∀ q, (arrs q).length = n) (ts : List (Adder κ α))
    (hts : ∀ t ∈ ts, Sound n t) (hkeys : ∀ t ∈ ts, ∀ q, q ∈ t.todo.map (·.1) ↔ q ∈ keys) (E : (κ → α) → Prop)
    (hE : ∀ t ∈ ts, ∀ j, j < t.slots.length → ∃ e, E e ∧ ExampleOf t j e) (hold : Whole keys E n arrs) (order : List Nat) (hnd : order.Nodup) :
    Whole keys E n (run ⟨arrs, ts⟩ (inTurn ts order)).arrs :=
  serial n keys E ts hts hkeys hE order ⟨arrs, ts⟩ hnd (fun _ _ => rfl) hsize hold

/-- Refuted: that the parts of an example stay together with threads (`InfiniteSampler(multiplexed=True)` and `parallel=True`): two threads that have drawn the same slot, one of which writes
both its keys between the two writes of the other, leave there the first part of one example and the second of another. -/
theorem C376_refuted {α : Type} (x y x' y' z : α) (w : World Bool α)
    (hw : w = run ⟨fun _ => [z], [⟨[0], [(true, [x]), (false, [y])]⟩, ⟨[0], [(true, [x']), (false, [y'])]⟩]⟩ [0, 1, 1, 0]) :
    (w.arrs true)[0]? = some x' ∧ (w.arrs false)[0]? = some y ∧ ∀ t ∈ w.threads, t.todo = [] := by
  subst hw
  refine ⟨?_, ?_, ?_⟩
  · simp [run, step, put, assign]
  · simp [run, step, put, assign]
  · simp [run, step]

/-- Two threads with two examples each, of which one slot is the same. -/
def twoAdders : List (Adder Bool Nat) := [⟨[0, 1], [(true, [1, 2]), (false, [10, 20])]⟩, ⟨[1, 2], [(true, [3, 4]), (false, [30, 40])]⟩]

theorem twoAdders_sound : ∀ t ∈ twoAdders, Sound 3 t := by
  intro t ht
  simp only [twoAdders, List.mem_cons, List.not_mem_nil, or_false] at ht
  rcases ht with rfl | rfl <;> (unfold Sound; decide)

example := C376_alone 3 (fun _ => [0, 0, 0]) (fun _ => rfl) twoAdders twoAdders_sound 0 _ rfl 0 (by decide) (by
  intro j u hj hu
  match j, hj with
  | 1, _ => simp [twoAdders] at hu; subst hu; decide
  | j + 2, _ => simp [twoAdders] at hu) [1, 0, 1, 0] rfl

example := C376_in_turn 3 [true, false] (fun _ => [0, 0, 0]) (fun _ => rfl) twoAdders twoAdders_sound
  (by
    intro t ht q
    simp only [twoAdders, List.mem_cons, List.not_mem_nil, or_false] at ht
    rcases ht with rfl | rfl <;> cases q <;> decide)
  (fun e => e false = 10 * e true)
  (by
    intro t ht j hj
    simp only [twoAdders, List.mem_cons, List.not_mem_nil, or_false] at ht
    rcases ht with rfl | rfl
    · match j, hj with
      | 0, _ => exact ⟨fun b => if b then 1 else 10, rfl, by unfold ExampleOf; decide⟩
      | 1, _ => exact ⟨fun b => if b then 2 else 20, rfl, by unfold ExampleOf; decide⟩
    · match j, hj with
      | 0, _ => exact ⟨fun b => if b then 3 else 30, rfl, by unfold ExampleOf; decide⟩
      | 1, _ => exact ⟨fun b => if b then 4 else 40, rfl, by unfold ExampleOf; decide⟩)
  (by
    intro k hk
    refine ⟨fun _ => 0, rfl, ?_⟩
    intro q _
    match k, hk with
    | 0, _ => rfl
    | 1, _ => rfl
    | 2, _ => rfl) [1, 0] (by decide)

end Zounds.MuxThreads
