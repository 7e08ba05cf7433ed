import Verif.Model.Desk
import Verif.Props.Memory

/-!
# C381: which arrays can be changed, and what changes with them
-/

namespace Zounds.Desk
open Zounds

/-! ## Specification: what the history says -/

/-- Which array (counted as they are made) the numbers belong to, whether that one was read from storage and has numbers, and the number of channels. -/
structure Kin where
  root : Nat
  stored : Bool
  channels : Nat

/-- One more line of the family book. -/
def note {α : Type} (l : List Kin) : Act α → List Kin
  | .decode xs c => l ++ [⟨l.length, !xs.isEmpty, c⟩]
  | .compute _ c => l ++ [⟨l.length, false, c⟩]
  | .view h _ c => match l[h]? with
    | none => l
    | some k => l ++ [⟨k.root, k.stored, c⟩]
  | .convert h c _ => match l[h]? with
    | none => l
    | some k => if k.channels = c then l ++ [k] else l ++ [⟨l.length, false, c⟩]
  | .store _ _ _ => l

/-- The family book of a program. -/
def book {α : Type} (acts : List (Act α)) : List Kin := acts.foldl note []

/-! ## The invariant -/

/-- The arrays are as the family book says. -/
structure Fits {α : Type} (d : Desk α) (l : List Kin) : Prop where
  length : d.arrays.length = l.length
  same : ∀ (i : Nat) (a : Held) (k : Kin), d.arrays[i]? = some a → l[i]? = some k → a.channels = k.channels ∧ a.locked = k.stored ∧ k.root < l.length ∧ ∀ x ∈ a.addrs, x < d.mem.next
  apart : ∀ (i j : Nat) (a b : Held) (k m : Kin), d.arrays[i]? = some a → d.arrays[j]? = some b → l[i]? = some k → l[j]? = some m → ∀ x ∈ a.addrs, x ∈ b.addrs → k.root = m.root
  kin : ∀ (i j : Nat) (k m : Kin), l[i]? = some k → l[j]? = some m → k.root = m.root → k.stored = m.stored

theorem at_end {β : Type} (l : List β) (x : β) (i : Nat) (y : β) (h : (l ++ [x])[i]? = some y) : l[i]? = some y ∨ (i = l.length ∧ y = x) := by
  rcases Nat.lt_trichotomy i l.length with hi | hi | hi
  · rw [List.getElem?_append_left hi] at h
    exact Or.inl h
  · subst hi
    simp at h
    exact Or.inr ⟨rfl, h.symm⟩
  · rw [List.getElem?_append_right (by omega), List.getElem?_eq_none (by simp; omega)] at h
    cases h

theorem getElem?_lt {β : Type} {l : List β} {i : Nat} {x : β} (h : l[i]? = some x) : i < l.length := (List.getElem?_eq_some_iff.1 h).1

theorem at_both {α : Type} {d : Desk α} {l : List Kin} (hf : Fits d l) {a : Held} {k : Kin} {i : Nat} {b : Held} {m : Kin}
    (h1 : (d.arrays ++ [a])[i]? = some b) (h2 : (l ++ [k])[i]? = some m) : (d.arrays[i]? = some b ∧ l[i]? = some m) ∨ (i = l.length ∧ b = a ∧ m = k) := by
  rcases at_end _ _ _ _ h1 with g1 | ⟨e1, rfl⟩ <;> rcases at_end _ _ _ _ h2 with g2 | ⟨e2, rfl⟩
  · exact Or.inl ⟨g1, g2⟩
  · have := getElem?_lt g1; have := hf.length; omega
  · have := getElem?_lt g2; have := hf.length; omega
  · exact Or.inr ⟨e2, rfl, rfl⟩

/-- A new array fits. -/
theorem fits_add {α : Type} {d : Desk α} {l : List Kin} (hf : Fits d l) (xs : List α) (c : Nat) (b : Bool) : Fits (d.add xs c b) (l ++ [⟨l.length, b, c⟩]) := by
  have hge := Memory.fresh_ge d.mem xs
  have hnx := Memory.fresh_next d.mem xs
  refine ⟨by simp [Desk.add, hf.length], ?_, ?_, ?_⟩
  · intro i a k h1 h2
    rcases at_both hf h1 h2 with ⟨g1, g2⟩ | ⟨rfl, rfl, rfl⟩
    · obtain ⟨p, q, r, s⟩ := hf.same i a k g1 g2
      refine ⟨p, q, by simp; omega, fun x hx => ?_⟩
      have := s x hx
      show x < (Memory.fresh d.mem xs).1.next
      omega
    · exact ⟨rfl, rfl, by simp, fun x hx => (hge x hx).2⟩
  · intro i j a a' k m h1 h2 h3 h4 x hx hx'
    rcases at_both hf h1 h3 with ⟨g1, g2⟩ | ⟨rfl, rfl, rfl⟩ <;> rcases at_both hf h2 h4 with ⟨f1, f2⟩ | ⟨rfl, rfl, rfl⟩
    · exact hf.apart i j a a' k m g1 f1 g2 f2 x hx hx'
    · have := (hf.same i a k g1 g2).2.2.2 x hx
      have := (hge x hx').1
      omega
    · have := (hf.same j a' m f1 f2).2.2.2 x hx'
      have := (hge x hx).1
      omega
    · rfl
  · intro i j k m h1 h2 he
    have hr : ∀ (i : Nat) (k : Kin), l[i]? = some k → k.root < l.length := by
      intro i k h
      have hi := getElem?_lt h
      have h' := List.getElem?_eq_getElem (l := d.arrays) (i := i) (by have := hf.length; omega)
      exact (hf.same i _ k h' h).2.2.1
    rcases at_end _ _ _ _ h1 with g1 | ⟨rfl, rfl⟩ <;> rcases at_end _ _ _ _ h2 with g2 | ⟨rfl, rfl⟩
    · exact hf.kin i j k m g1 g2 he
    · have := hr i k g1
      simp only at he
      omega
    · have := hr j m g2
      simp only at he
      omega
    · rfl

/-- Another name for elements of an array fits. -/
theorem fits_share {α : Type} {d : Desk α} {l : List Kin} (hf : Fits d l) (h : Nat) (a : Held) (k : Kin) (ha : d.arrays[h]? = some a) (hk : l[h]? = some k)
    (as : List Nat) (has : ∀ x ∈ as, x ∈ a.addrs) (c : Nat) : Fits (d.share ⟨as, c, a.locked⟩) (l ++ [⟨k.root, k.stored, c⟩]) := by
  obtain ⟨-, hl, hrt, hlt⟩ := hf.same h a k ha hk
  refine ⟨by simp [Desk.share, hf.length], ?_, ?_, ?_⟩
  · intro i b m h1 h2
    rcases at_both hf h1 h2 with ⟨g1, g2⟩ | ⟨rfl, rfl, rfl⟩
    · obtain ⟨p, q, r, s⟩ := hf.same i b m g1 g2
      exact ⟨p, q, by simp; omega, s⟩
    · exact ⟨rfl, hl, by simp; omega, fun x hx => hlt x (has x hx)⟩
  · intro i j b b' m m' h1 h2 h3 h4 x hx hx'
    rcases at_both hf h1 h3 with ⟨g1, g2⟩ | ⟨rfl, rfl, rfl⟩ <;> rcases at_both hf h2 h4 with ⟨f1, f2⟩ | ⟨rfl, rfl, rfl⟩
    · exact hf.apart i j b b' m m' g1 f1 g2 f2 x hx hx'
    · exact hf.apart i h b a m k g1 ha g2 hk x hx (has x hx')
    · exact hf.apart h j a b' k m' ha f1 hk f2 x (has x hx) hx'
    · rfl
  · intro i j m m' h1 h2 he
    rcases at_end _ _ _ _ h1 with g1 | ⟨rfl, rfl⟩ <;> rcases at_end _ _ _ _ h2 with g2 | ⟨rfl, rfl⟩
    · exact hf.kin i j m m' g1 g2 he
    · exact hf.kin i h m k g1 hk he
    · exact hf.kin h j k m' hk g2 he
    · rfl

theorem fits_put {α : Type} {d : Desk α} {l : List Kin} (hf : Fits d l) (a : Held) (k : Nat) (x : α) : Fits (d.put a k x).1 l := by
  unfold Desk.put
  split
  · exact hf
  · split
    · exact hf
    · exact ⟨hf.length, hf.same, hf.apart, hf.kin⟩

theorem none_of {α : Type} {d : Desk α} {l : List Kin} (hf : Fits d l) {h : Nat} (hn : d.arrays[h]? = none) : l[h]? = none := by
  rw [List.getElem?_eq_none_iff] at hn ⊢
  have := hf.length
  omega

theorem some_of {α : Type} {d : Desk α} {l : List Kin} (hf : Fits d l) {h : Nat} {a : Held} (ha : d.arrays[h]? = some a) : ∃ k, l[h]? = some k := by
  have := getElem?_lt ha
  exact ⟨_, List.getElem?_eq_getElem (by have := hf.length; omega)⟩

theorem fits_step {α : Type} {d : Desk α} {l : List Kin} (hf : Fits d l) (act : Act α) : Fits (d.step act).1 (note l act) := by
  cases act with
  | decode xs c => exact fits_add hf xs c _
  | compute f c => exact fits_add hf _ c false
  | view h pick c =>
    cases ha : d.arrays[h]? with
    | none => simpa [Desk.step, note, ha, none_of hf ha] using hf
    | some a =>
      obtain ⟨k, hk⟩ := some_of hf ha
      simp only [Desk.step, note, ha, hk, Desk.use]
      refine fits_share hf h a k ha hk _ ?_ c
      intro x hx
      obtain ⟨p, -, hp⟩ := List.mem_filterMap.1 hx
      exact List.mem_of_getElem? hp
  | convert h c f =>
    cases ha : d.arrays[h]? with
    | none => simpa [Desk.step, note, ha, none_of hf ha] using hf
    | some a =>
      obtain ⟨k, hk⟩ := some_of hf ha
      simp only [Desk.step, note, ha, hk, Desk.use]
      rw [← (hf.same h a k ha hk).1]
      split
      · have e := (hf.same h a k ha hk).1
        have := fits_share hf h a k ha hk a.addrs (fun _ hx => hx) a.channels
        have hk' : (⟨k.root, k.stored, a.channels⟩ : Kin) = k := by rw [e]
        rw [hk'] at this
        exact this
      · exact fits_add hf _ c false
  | store h k x =>
    cases ha : d.arrays[h]? with
    | none => simpa [Desk.step, note, ha] using hf
    | some a => simpa [Desk.step, note, ha, Desk.use] using fits_put hf a k x

theorem fits_run {α : Type} (acts : List (Act α)) : ∀ (d : Desk α) (l : List Kin), Fits d l → Fits (d.run acts) (acts.foldl note l) := by
  induction acts with
  | nil => exact fun d l h => h
  | cons x acts ih => exact fun d l h => ih _ _ (fits_step h x)

theorem fits_start {α : Type} (z : α) (acts : List (Act α)) : Fits ((Desk.empty z).run acts) (book acts) :=
  fits_run acts _ _ ⟨rfl, by simp [Desk.empty], by simp [Desk.empty], by simp⟩

/-- A step that is not an accepted store leaves the arrays there are, and what they read. -/
theorem keeps {α : Type} {d : Desk α} {l : List Kin} (hf : Fits d l) (act : Act α) (i : Nat) (a : Held) (k : Kin) (ha : d.arrays[i]? = some a) (hk : l[i]? = some k)
    (hs : ∀ h n x, act = .store h n x → ∀ m, l[h]? = some m → m.stored = true ∨ m.root ≠ k.root) :
    (d.step act).1.arrays[i]? = some a ∧ (d.step act).1.read a = d.read a := by
  have hi := getElem?_lt ha
  have hlt := (hf.same i a k ha hk).2.2.2
  have hadd : ∀ (xs : List α) (c : Nat) (b : Bool), (d.add xs c b).arrays[i]? = some a ∧ (d.add xs c b).read a = d.read a := by
    intro xs c b
    refine ⟨by simp only [Desk.add]; rw [List.getElem?_append_left hi]; exact ha, ?_⟩
    exact List.map_congr_left fun x hx => Memory.fresh_old d.mem xs x (hlt x hx)
  have hshare : ∀ b : Held, (d.share b).arrays[i]? = some a ∧ (d.share b).read a = d.read a := by
    intro b
    exact ⟨by simp only [Desk.share]; rw [List.getElem?_append_left hi]; exact ha, rfl⟩
  cases act with
  | decode xs c => exact hadd _ _ _
  | compute f c => exact hadd _ _ _
  | view h pick c =>
    simp only [Desk.step]
    split
    · exact ⟨ha, rfl⟩
    · exact hshare _
  | convert h c f =>
    simp only [Desk.step]
    split
    · exact ⟨ha, rfl⟩
    · simp only [Desk.use]
      split
      · exact hshare _
      · exact hadd _ _ _
  | store h n x =>
    simp only [Desk.step]
    split
    · exact ⟨ha, rfl⟩
    · rename_i b hb
      obtain ⟨m, hm⟩ := some_of hf hb
      simp only [Desk.use, Desk.put]
      split
      · exact ⟨ha, rfl⟩
      · rename_i hu
        split
        · exact ⟨ha, rfl⟩
        · rename_i ad had
          refine ⟨ha, List.map_congr_left fun y hy => ?_⟩
          simp only [Arr.Mem.store]
          rw [if_neg]
          rintro rfl
          rcases hs h n x rfl m hm with h1 | h1
          · rw [(hf.same h b m hb hm).2.1] at hu
            exact hu h1
          · exact h1 (hf.apart h i b a m k hb ha hm hk _ (List.mem_of_getElem? had) hy)

theorem note_keeps {α : Type} (l : List Kin) (act : Act α) (i : Nat) (k : Kin) (h : l[i]? = some k) : (note l act)[i]? = some k := by
  have hi := getElem?_lt h
  have happ : ∀ m : Kin, (l ++ [m])[i]? = some k := fun m => by rw [List.getElem?_append_left hi]; exact h
  cases act with
  | decode xs c => exact happ _
  | compute f c => exact happ _
  | view j pick c => simp only [note]; split; exacts [h, happ _]
  | convert j c f =>
    simp only [note]
    split
    · exact h
    · split <;> exact happ _
  | store j n x => exact h

theorem fixed_run {α : Type} (acts : List (Act α)) : ∀ (d : Desk α) (l : List Kin), Fits d l → ∀ (i : Nat) (a : Held) (k : Kin), d.arrays[i]? = some a → l[i]? = some k → k.stored = true →
    (d.run acts).arrays[i]? = some a ∧ (d.run acts).read a = d.read a := by
  induction acts with
  | nil => exact fun d l _ i a k h _ _ => ⟨h, rfl⟩
  | cons act acts ih =>
    intro d l hf i a k ha hk hs
    have h1 := keeps hf act i a k ha hk (fun h n x he m hm => by
      by_cases hr : m.root = k.root
      · exact Or.inl ((hf.kin h i m k hm hk hr).trans hs)
      · exact Or.inr hr)
    have h2 := ih _ _ (fits_step hf act) i a k h1.1 (note_keeps l act i k hk) hs
    refine ⟨h2.1, h2.2.trans ?_⟩
    exact h1.2

/-- Names stay. -/
theorem lasting {α : Type} (after : List (Act α)) : ∀ (d : Desk α) (i : Nat) (a : Held), d.arrays[i]? = some a → (d.run after).arrays[i]? = some a := by
  induction after with
  | nil => exact fun d i a h => h
  | cons act after ih =>
    intro d i a h
    refine ih _ i a ?_
    have hi := getElem?_lt h
    have happ : ∀ m : Held, (d.arrays ++ [m])[i]? = some a := fun m => by rw [List.getElem?_append_left hi]; exact h
    cases act with
    | decode xs c => exact happ _
    | compute f c => exact happ _
    | view j pick c => simp only [Desk.step]; split; exacts [h, happ _]
    | convert j c f =>
      simp only [Desk.step]
      split
      · exact h
      · simp only [Desk.use]
        split <;> exact happ _
    | store j n x =>
      simp only [Desk.step]
      split
      · exact h
      · simp only [Desk.use, Desk.put]
        split
        · exact h
        · split <;> exact h

/-! ## The theorems -/

theorem run_append {α : Type} (d : Desk α) (p q : List (Act α)) : d.run (p ++ q) = (d.run p).run q := by simp [Desk.run]

theorem book_length {α : Type} (z : α) (acts : List (Act α)) : (book acts).length = ((Desk.empty z).run acts).arrays.length := (fits_start z acts).length.symm

/-- **C381**: an array that was read back from storage reads what was stored, whatever is done before and after with it and arrays made from it. -/
theorem C381_as_stored {α : Type} (z : α) (before after : List (Act α)) (xs : List α) (c : Nat) :
    ∃ a, ((Desk.empty z).run (before ++ .decode xs c :: after)).arrays[(book before).length]? = some a ∧
      ((Desk.empty z).run (before ++ .decode xs c :: after)).read a = xs := by
  have hf := fits_start z before
  obtain ⟨d, hd⟩ : ∃ d, d = (Desk.empty z).run before := ⟨_, rfl⟩
  have e : (Desk.empty z).run (before ++ .decode xs c :: after) = (d.add xs c (!xs.isEmpty)).run after := by
    rw [run_append, hd]
    rfl
  rw [e]
  rw [← hd] at hf
  have hlast : (d.add xs c (!xs.isEmpty)).arrays[(book before).length]? = some ⟨(Memory.fresh d.mem xs).2, c, !xs.isEmpty⟩ := by
    rw [← hf.length]
    simp [Desk.add]
  have hread : (d.add xs c (!xs.isEmpty)).read ⟨(Memory.fresh d.mem xs).2, c, !xs.isEmpty⟩ = xs := Memory.fresh_read d.mem xs
  cases xs with
  | cons x xs =>
    obtain ⟨h1, h2⟩ := fixed_run after _ _ (fits_add hf (x :: xs) c _) _ _ ⟨(book before).length, true, c⟩ hlast (by simp) rfl
    exact ⟨_, h1, h2.trans hread⟩
  | nil =>
    exact ⟨_, lasting after _ _ _ hlast, by simp [Desk.read, Memory.fresh]⟩

/-- A store is refused with ValueError exactly if the numbers of the array were read back from storage (and there are any); then nothing changes.  So is an array made of it without copying, however often. -/
theorem C381_refused {α : Type} (z : α) (acts : List (Act α)) (i : Nat) (k : Kin) (hk : (book acts)[i]? = some k) (n : Nat) (x : α) :
    ((((Desk.empty z).run acts).step (.store i n x)).2 = some .valueError ↔ k.stored = true) ∧
    (k.stored = true → (((Desk.empty z).run acts).step (.store i n x)).1 = (Desk.empty z).run acts) := by
  have hf := fits_start z acts
  obtain ⟨d, hd⟩ : ∃ d, d = (Desk.empty z).run acts := ⟨_, rfl⟩
  rw [← hd] at hf ⊢
  have hi := getElem?_lt hk
  have ha := List.getElem?_eq_getElem (l := d.arrays) (i := i) (by have := hf.length; omega)
  have hl := (hf.same i _ k ha hk).2.1
  simp only [Desk.step, ha, Desk.use, Desk.put]
  rw [hl]
  cases hs : k.stored with
  | true => simp
  | false =>
    simp only [Bool.false_eq_true, if_false, iff_false, false_imp_iff, and_true]
    split <;> simp

/-- An accepted store at place `n` of an array: it reads the new number there, and every array whose numbers do not come from the same one reads as before. -/
theorem C381_store {α : Type} (z : α) (acts : List (Act α)) (i : Nat) (n : Nat) (x : α) (h : (((Desk.empty z).run acts).step (.store i n x)).2 = none) :
    (∃ a, ((Desk.empty z).run acts).arrays[i]? = some a ∧ ((((Desk.empty z).run acts).step (.store i n x)).1.read a)[n]? = some x) ∧
    ∀ (j : Nat) (b : Held) (k m : Kin), ((Desk.empty z).run acts).arrays[j]? = some b → (book acts)[i]? = some k → (book acts)[j]? = some m → k.root ≠ m.root →
      (((Desk.empty z).run acts).step (.store i n x)).1.read b = ((Desk.empty z).run acts).read b := by
  have hf := fits_start z acts
  obtain ⟨d, hd⟩ : ∃ d, d = (Desk.empty z).run acts := ⟨_, rfl⟩
  rw [← hd] at hf h ⊢
  constructor
  · simp only [Desk.step] at h ⊢
    cases ha : d.arrays[i]? with
    | none => simp [ha] at h
    | some a =>
      refine ⟨a, rfl, ?_⟩
      simp only [ha, Desk.use, Desk.put] at h ⊢
      split at h
      · simp at h
      · rename_i hu
        rw [if_neg hu]
        cases had : a.addrs[n]? with
        | none => simp [had] at h
        | some ad =>
          simp only [Desk.read, List.getElem?_map, had, Option.map_some, Arr.Mem.store, if_true]
  · intro j b k m hb hk hm hne
    refine (keeps hf (.store i n x) j b m hb hm ?_).2
    intro h' n' x' he m' hm'
    cases he
    rw [hk] at hm'
    cases hm'
    exact Or.inr hne

/-- `mono` of one channel (and `stereo` of two) is the array itself: a store in it is a store in the array.  Of any other number of channels it is an array of its own. -/
theorem C381_convert {α : Type} (z : α) (acts : List (Act α)) (i : Nat) (a : Held) (ha : ((Desk.empty z).run acts).arrays[i]? = some a) (c : Nat) (f : List α → List α) :
    ∃ (b : Held) (k m : Kin), ((Desk.empty z).run (acts ++ [.convert i c f])).arrays[(book acts).length]? = some b ∧
      (book (acts ++ [.convert i c f]))[i]? = some k ∧ (book (acts ++ [.convert i c f]))[(book acts).length]? = some m ∧
      (a.channels = c → b = a ∧ m = k) ∧
      (a.channels ≠ c → m.root ≠ k.root ∧ m.stored = false ∧ ((Desk.empty z).run (acts ++ [.convert i c f])).read b = f (((Desk.empty z).run acts).read a)) := by
  have hf := fits_start z acts
  rw [run_append]
  obtain ⟨d, hd⟩ : ∃ d, d = (Desk.empty z).run acts := ⟨_, rfl⟩
  rw [← hd] at hf ha ⊢
  have hb : book (acts ++ [.convert i c f]) = note (book acts) (.convert i c f) := by simp [book]
  rw [hb]
  obtain ⟨k, hk⟩ := some_of hf ha
  have hs := hf.same i a k ha hk
  have hr : d.run [.convert i c f] = (d.step (.convert i c f)).1 := rfl
  rw [hr, ← hf.length]
  have hkeep := note_keeps (book acts) (.convert i c f) i k hk
  by_cases hc : a.channels = c
  · refine ⟨a, k, k, ?_, hkeep, ?_, fun _ => ⟨rfl, rfl⟩, fun h => absurd hc h⟩
    · simp [Desk.step, ha, Desk.use, hc, Desk.share]
    · simp [note, hk, ← hs.1, hc, hf.length]
  · refine ⟨⟨(Memory.fresh d.mem (f (d.read a))).2, c, false⟩, k, ⟨(book acts).length, false, c⟩, ?_, hkeep, ?_, fun h => absurd h hc, fun _ => ⟨?_, rfl, ?_⟩⟩
    · simp [Desk.step, ha, Desk.use, hc, Desk.add]
    · simp [note, hk, ← hs.1, hc, hf.length]
    · have := hs.2.2.1
      simp only [ne_eq]
      omega
    · simp only [Desk.step, ha, Desk.use, if_neg hc]
      exact Memory.fresh_read d.mem _

/-- A view reads the elements it picked of its array as they are at the time it is read, whatever happens to either of them in the meantime. -/
theorem C381_view {α : Type} (z : α) (acts after : List (Act α)) (i : Nat) (a : Held) (ha : ((Desk.empty z).run acts).arrays[i]? = some a) (pick : List Nat) (c : Nat) :
    ∃ b, ((Desk.empty z).run (acts ++ .view i pick c :: after)).arrays[(book acts).length]? = some b ∧
      ((Desk.empty z).run (acts ++ .view i pick c :: after)).arrays[i]? = some a ∧
      ((Desk.empty z).run (acts ++ .view i pick c :: after)).read b = pick.filterMap fun p => (((Desk.empty z).run (acts ++ .view i pick c :: after)).read a)[p]? := by
  have hf := fits_start z acts
  rw [run_append]
  obtain ⟨d, hd⟩ : ∃ d, d = (Desk.empty z).run acts := ⟨_, rfl⟩
  rw [← hd] at hf ha ⊢
  have hr : d.run (.view i pick c :: after) = (d.share ⟨pick.filterMap (a.addrs[·]?), c, a.locked⟩).run after := by
    show ((d.step (.view i pick c)).1).run after = _
    simp [Desk.step, ha, Desk.use]
  rw [hr, ← hf.length]
  refine ⟨⟨pick.filterMap (a.addrs[·]?), c, a.locked⟩, lasting after _ _ _ (by simp [Desk.share]), lasting after _ _ _ ?_, ?_⟩
  · simp only [Desk.share]
    rw [List.getElem?_append_left (getElem?_lt ha)]
    exact ha
  · simp [Desk.read, List.map_filterMap, List.getElem?_map]

/-- A new array reads what was computed, and is nobody else's. -/
theorem C381_new {α : Type} (z : α) (acts : List (Act α)) (f : List (List α) → List α) (c : Nat) :
    ∃ b, ((Desk.empty z).run (acts ++ [.compute f c])).arrays[(book acts).length]? = some b ∧
      ((Desk.empty z).run (acts ++ [.compute f c])).read b = f (((Desk.empty z).run acts).arrays.map ((Desk.empty z).run acts).read) ∧
      (book (acts ++ [.compute f c]))[(book acts).length]? = some ⟨(book acts).length, false, c⟩ := by
  have hf := fits_start z acts
  rw [run_append]
  obtain ⟨d, hd⟩ : ∃ d, d = (Desk.empty z).run acts := ⟨_, rfl⟩
  rw [← hd] at hf ⊢
  refine ⟨⟨(Memory.fresh d.mem (f (d.arrays.map d.read))).2, c, false⟩, ?_, ?_, by simp [book, note]⟩
  · rw [← hf.length]
    simp [Desk.run, Desk.step, Desk.add]
  · exact Memory.fresh_read d.mem _

/-- Behind its last number nothing can be stored in an array (if it can be changed at all): IndexError. -/
theorem C381_outside {α : Type} (z : α) (acts : List (Act α)) (i : Nat) (a : Held) (ha : ((Desk.empty z).run acts).arrays[i]? = some a) (k : Kin) (hk : (book acts)[i]? = some k)
    (hs : k.stored = false) (n : Nat) (x : α) :
    (((Desk.empty z).run acts).step (.store i n x)).2 = some .indexError ↔ (((Desk.empty z).run acts).read a).length ≤ n := by
  have hl := ((fits_start z acts).same i a k ha hk).2.1
  rw [hs] at hl
  simp only [Desk.step, ha, Desk.use, Desk.put, hl, Bool.false_eq_true, if_false]
  cases had : a.addrs[n]? with
  | none => simpa [Desk.read] using List.getElem?_eq_none_iff.1 had
  | some ad => simpa [Desk.read] using getElem?_lt had

/-- A stored sound of one channel, its `mono`, a slice of that, a copy of the slice. -/
def session : List (Act Nat) :=
  [.decode [1, 2, 3, 4] 1, .convert 0 1 id, .view 1 [1, 2] 1, .compute (fun rs => rs.getD 2 []) 1, .store 2 0 9, .store 3 0 9]

theorem session_ends : ((Desk.empty 0).run session).arrays.map ((Desk.empty 0).run session).read = [[1, 2, 3, 4], [1, 2, 3, 4], [2, 3], [9, 3]] ∧
    (book session).map (·.root) = [0, 0, 0, 3] ∧ (book session).map (·.stored) = [true, true, true, false] := by decide +kernel

example := C381_as_stored 0 [] (session.drop 1) [1, 2, 3, 4] 1
example := (C381_refused 0 session 2 ⟨0, true, 1⟩ rfl 0 7).1.2 rfl
example := (C381_refused 0 session 3 ⟨3, false, 1⟩ rfl 0 7).1
example := C381_view 0 session [.store 2 1 8] 3 _ rfl [1, 0] 1
example := C381_new 0 session (fun rs => rs.flatten) 1
example := (C381_outside 0 session 3 _ rfl ⟨3, false, 1⟩ rfl rfl 2 7).2 (by decide)
example := C381_store 0 session 3 1 7 rfl
example := C381_convert 0 session 2 _ rfl 1 id
example := C381_convert 0 session 2 _ rfl 2 (fun xs => xs.flatMap fun x => [x, x])

end Zounds.Desk
