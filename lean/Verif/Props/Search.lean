import Verif.Model.Search
import Verif.Props.HammingDb
import Verif.Props.Persist
import Verif.Props.Codes
import Mathlib.Data.Countable.Basic
import Mathlib.Logic.Equiv.List

/-!
# Searching an index (C284 - C291)
-/

namespace Zounds.Search
open Zounds Zounds.HammingDb Zounds.Time Zounds.Persist Zounds.Props.HammingDb Zounds.Props.Persist

/-! ## Specification: a shelf of rows -/

/-- An indexed segment. -/
structure Row (X : Type) where
  doc : List Char
  seg : Segment
  extra : Option X
  id : Nat

/-- The index to its users: the size of its codes, once there is one, and the indexed segments. -/
structure Shelf (X : Type) where
  size : Option Nat := none
  rows : List (Row X) := []

/-- The first code decides about the size, which must be a positive multiple of eight bytes; every other code must have that size. -/
def sizeOk : Option Nat → List UInt8 → Bool
  | none, c => decide (0 < c.length ∧ c.length % 8 = 0)
  | some n, c => decide (c.length = n)

/-- A document's segments are put on the shelf in order until one cannot be: its array is no binary code, its code has the wrong size, or its time has no duration.
The second part tells whether all were. -/
def put {X : Type} (doc : List Char) (ex : Option (List Char → TimeSlice → X)) : Shelf X → List (Segment × Nat) → Shelf X × Bool
  | sh, [] => (sh, true)
  | sh, s :: ss =>
    match Codes.encodeQuery s.1.data with
    | .error _ => (sh, false)
    | .ok c =>
      if s.1.ts.duration.isSome = true ∧ sizeOk sh.size c = true then
        put doc ex ⟨some c.length, sh.rows ++ [⟨doc, s.1, ex.map fun f => f doc s.1.ts, s.2⟩]⟩ ss
      else (sh, false)

/-- The shelf after a history; `exs` are the extra_data functions of the index objects created so far. -/
def shelf {X : Type} : List (Option (List Char → TimeSlice → X)) → Shelf X → List (Act X) → Shelf X
  | _, sh, [] => sh
  | exs, sh, .create _ ex :: as => shelf (exs ++ [ex]) sh as
  | exs, sh, .add k doc segs :: as =>
    match exs[k]? with
    | none => shelf exs sh as
    | some ex => shelf exs (put doc ex sh segs).1 as
  | exs, sh, .search .. :: as => shelf exs sh as

/-- The random ids a history draws. -/
def drawn {X : Type} : List (Act X) → List Nat
  | [] => []
  | .add _ _ segs :: as => segs.map Prod.snd ++ drawn as
  | _ :: as => drawn as

/-- The code of a segment. -/
def codeOf (s : Segment) : List UInt8 :=
  match Codes.encodeQuery s.data with
  | .ok c => c
  | .error _ => []

/-! ## The database behind the shelf -/

def timesOf (t : TimeSlice) : (List Char × TUnit) × (List Char × TUnit) :=
  (encodeTimedelta t.start, encodeTimedelta (t.duration.getD ⟨0, .ps⟩))

def recOf {X : Type} (js : Json X) (r : Row X) : Rec :=
  ⟨r.id, codeOf r.seg, (js.dumps ⟨r.doc, timesOf r.seg.ts, r.extra⟩).flatMap String.utf8EncodeChar⟩

structure Behind {X : Type} (np : Numpy) (js : Json X) (w : World) (sh : Shelf X) : Prop where
  hist : ∃ ops, FreshIds ops ∧ CommitsSucceed ops ∧ PlainCodes ops ∧ run np {} ops = w ∧
    accepted np {} ops = sh.rows.map (recOf js) ∧ ops.filterMap newId? = sh.rows.map Row.id
  size : w.codesize = sh.size
  pos : ∀ n, sh.size = some n → 0 < n
  durs : ∀ r ∈ sh.rows, r.seg.ts.duration ≠ none ∧ ∃ c, Codes.encodeQuery r.seg.data = .ok c

def Keeps (w w' : World) : Prop := ∀ (j : Nat) i, w.insts[j]? = some i → ∃ i', w'.insts[j]? = some i' ∧ i'.writeonly = i.writeonly

theorem Keeps.refl (w : World) : Keeps w w := fun _ i h => ⟨i, h, rfl⟩

theorem Keeps.trans {a b c : World} (h1 : Keeps a b) (h2 : Keeps b c) : Keeps a c := by
  intro j i h
  obtain ⟨i', h', e⟩ := h1 j i h
  obtain ⟨i'', h'', e'⟩ := h2 j i' h'
  exact ⟨i'', h'', e'.trans e⟩

def Attached {X : Type} (w : World) (x : Index X) : Prop := ∀ j, x.db = some j → ∃ i, w.insts[j]? = some i ∧ i.writeonly = x.writeonly

theorem Attached.keep {X : Type} {w w' : World} {x : Index X} (h : Attached w x) (hk : Keeps w w') : Attached w' x := by
  intro j hj
  obtain ⟨i, h1, h2⟩ := h j hj
  obtain ⟨i', h3, h4⟩ := hk j i h1
  exact ⟨i', h3, h4.trans h2⟩

theorem run_snoc (np : Numpy) (op : Op) : ∀ (ops : List Op) (w : World), run np w (ops ++ [op]) = (step np (run np w ops) op).1 := by
  intro ops
  induction ops with
  | nil => intro w; rfl
  | cons o ops ih => intro w; simp only [List.cons_append, run]; exact ih _

theorem accepted_snoc (np : Numpy) (op : Op) : ∀ (ops : List Op) (w : World),
    accepted np w (ops ++ [op]) = accepted np w ops ++ newRec op (step np (run np w ops) op).2 := by
  intro ops
  induction ops with
  | nil => intro w; simp [accepted, run]
  | cons o ops ih => intro w; simp only [List.cons_append, accepted, run, ih, List.append_assoc]

theorem Behind.inv {X : Type} {np : Numpy} {js : Json X} {w : World} {sh : Shelf X} (h : Behind np js w sh) : Inv w (sh.rows.map (recOf js)) := by
  obtain ⟨ops, h1, h2, _, h4, h5, _⟩ := h.hist
  have := history_inv np ops h1 h2
  rwa [h4, h5] at this

theorem catchUpLoop_wo (l : Store) : ∀ i i' : Inst, catchUpLoop i l = .ok i' → i'.writeonly = i.writeonly := by
  induction l with
  | nil => intro i i' h; cases h; rfl
  | cons p r ih =>
    intro i i' h
    unfold catchUpLoop at h
    split at h
    · exact ih i i' h
    · cases ha : addCode i p.1 (p.2.take i.codeSize) with
      | error e => simp only [ha] at h; cases h
      | ok j =>
        simp only [ha] at h
        rw [ih j i' h]
        unfold addCode at ha
        split at ha
        · cases ha; rfl
        · split at ha <;> cases ha
          rfl

theorem open_ok {w : World} {log : List Rec} (h : Inv w log) (arg : Option Nat) (wo : Bool) (cs : Nat) (m : Option Nat)
    (hs : openSize w.codesize arg = .ok (cs, m)) :
    ∃ i, openDb w arg wo = ({ w with codesize := m, insts := w.insts ++ [i] }, .ok ()) ∧ i.writeonly = wo := by
  have hlen : ∀ p ∈ w.store, cs ≤ p.2.length := by
    cases hc : w.codesize with
    | some c =>
      have : c = cs := by
        rw [hc] at hs
        unfold openSize at hs
        cases arg with
        | none => simp only [] at hs; cases hs; rfl
        | some a =>
          simp only [] at hs
          split at hs
          · cases hs
          · cases hs; rfl
      subst this
      exact h.store_len hc
    | none =>
      intro p hp
      have := h.perm.mem_iff.1 hp
      obtain ⟨r, hr, rfl⟩ := List.mem_map.1 this
      obtain ⟨c, e, _⟩ := h.sizes r hr
      rw [hc] at e; cases e
  have hcatch : ∃ i, catchUp w.store { codeSize := cs, writeonly := wo } = .ok i := by
    unfold catchUp
    cases wo with
    | true => exact ⟨_, catchUpLoop_writeonly _ rfl _⟩
    | false =>
      obtain ⟨i', e1, _⟩ := catchUpLoop_ok w.store cs hlen w.store (fun _ h => h)
        { codeSize := cs, writeonly := false } rfl rfl ⟨rfl, by simp, by simp, by simp⟩
      exact ⟨i', e1⟩
  obtain ⟨i, hi⟩ := hcatch
  refine ⟨i, ?_, ?_⟩
  · simp only [openDb, hs, hi]
  · unfold catchUp at hi
    exact catchUpLoop_wo _ _ _ hi

theorem step_open (np : Numpy) (w w' : World) (arg : Option Nat) (wo : Bool) (h : openDb w arg wo = (w', .ok ())) :
    step np w (.open arg wo) = (w', .ok []) := by
  simp only [step, h]

theorem hist_open {X : Type} {np : Numpy} {js : Json X} {w w' : World} {sh : Shelf X} (h : Behind np js w sh) (arg : Option Nat) (wo : Bool)
    (ho : openDb w arg wo = (w', .ok ())) :
    ∃ ops, FreshIds ops ∧ CommitsSucceed ops ∧ PlainCodes ops ∧ run np {} ops = w' ∧
      accepted np {} ops = sh.rows.map (recOf js) ∧ ops.filterMap newId? = sh.rows.map Row.id := by
  obtain ⟨ops, h1, h2, h3, h4, h5, h6⟩ := h.hist
  refine ⟨ops ++ [.open arg wo], ?_, ?_, ?_, ?_, ?_, ?_⟩
  · unfold FreshIds at h1 ⊢
    rw [List.filterMap_append, show List.filterMap newId? [Op.open arg wo] = [] from rfl, List.append_nil]
    exact h1
  · intro k c d id hm
    rcases List.mem_append.1 hm with hm | hm
    · exact h2 k c d id hm
    · simp at hm
  · intro k c d id b hm
    rcases List.mem_append.1 hm with hm | hm
    · exact h3 k c d id b hm
    · simp at hm
  · rw [run_snoc, h4, step_open np w w' arg wo ho]
  · rw [accepted_snoc, h5]
    simp [newRec]
  · rw [List.filterMap_append, show List.filterMap newId? [Op.open arg wo] = [] from rfl, List.append_nil, h6]

theorem keeps_open (w : World) (m : Option Nat) (i : Inst) : Keeps w { w with codesize := m, insts := w.insts ++ [i] } := by
  intro j i' hj
  refine ⟨i', ?_, rfl⟩
  have hlt : j < w.insts.length := (List.getElem?_eq_some_iff.1 hj).1
  simpa [List.getElem?_append_left hlt] using hj

/-- Opening a database that exists. -/
theorem open_known {X : Type} {np : Numpy} {js : Json X} {w : World} {sh : Shelf X} (h : Behind np js w sh) (n : Nat) (hn : sh.size = some n)
    (arg : Option Nat) (ha : arg = none ∨ arg = some n) (wo : Bool) :
    ∃ w' i, openDb w arg wo = (w', .ok ()) ∧ Behind np js w' sh ∧ Keeps w w' ∧ w'.insts[w.insts.length]? = some i ∧ i.writeonly = wo := by
  have hs : openSize w.codesize arg = .ok (n, some n) := by
    rw [h.size, hn]
    rcases ha with rfl | rfl <;> simp [openSize]
  obtain ⟨i, ho, hw⟩ := open_ok h.inv arg wo n (some n) hs
  refine ⟨_, i, ho, ⟨hist_open h arg wo ho, ?_, h.pos, h.durs⟩, keeps_open w _ i, ?_, hw⟩
  · exact hn.symm
  · simp

/-- Creating a database. -/
theorem open_new {X : Type} {np : Numpy} {js : Json X} {w : World} {sh : Shelf X} (h : Behind np js w sh) (hn : sh.size = none)
    (a : Nat) (ha : a % 8 = 0) (hp : 0 < a) (wo : Bool) :
    ∃ w' i, openDb w (some a) wo = (w', .ok ()) ∧ Behind np js w' ⟨some a, sh.rows⟩ ∧ Keeps w w' ∧ w'.insts[w.insts.length]? = some i ∧ i.writeonly = wo := by
  have hs : openSize w.codesize (some a) = .ok (a, some a) := by
    rw [h.size, hn]
    simp [openSize, ha]
  obtain ⟨i, ho, hw⟩ := open_ok h.inv (some a) wo a (some a) hs
  have hh := hist_open h (some a) wo ho
  refine ⟨_, i, ho, ⟨hh, rfl, ?_, h.durs⟩, keeps_open w _ i, ?_, hw⟩
  · intro n e; cases e; exact hp
  · simp

theorem open_refused {w : World} (arg : Option Nat) (wo : Bool) (h : openSize w.codesize arg = .error .valueError) :
    openDb w arg wo = (w, .error .valueError) := by
  simp only [openDb, h]

/-- Appending a code of the right size. -/
theorem append_fits {X : Type} {np : Numpy} {js : Json X} {w : World} {sh : Shelf X} (h : Behind np js w sh) (r : Row X) (c : List UInt8)
    (hc : Codes.encodeQuery r.seg.data = .ok c) (hd : r.seg.ts.duration ≠ none) (hn : sh.size = some c.length) (j : Nat) (i : Inst) (hj : w.insts[j]? = some i)
    (hid : r.id ∉ sh.rows.map Row.id) :
    ∃ w', step np w (.append j (.bytes c) (.str (js.dumps ⟨r.doc, timesOf r.seg.ts, r.extra⟩)) r.id true) = (w', .ok []) ∧
      Behind np js w' ⟨sh.size, sh.rows ++ [r]⟩ ∧ Keeps w w' := by
  have hinv := h.inv
  have hcs := (hinv.insts i (List.mem_of_getElem? hj)).1
  rw [h.size, hn] at hcs
  have hlen : c.length = i.codeSize := Option.some.inj hcs
  have hlt : j < w.insts.length := (List.getElem?_eq_some_iff.1 hj).1
  have hcode : codeOf r.seg = c := by simp only [codeOf, hc]
  have happ : ∃ i', append w.store i (.bytes c) (.str (js.dumps ⟨r.doc, timesOf r.seg.ts, r.extra⟩)) r.id true =
      (Store.put r.id (c ++ (js.dumps ⟨r.doc, timesOf r.seg.ts, r.extra⟩).flatMap String.utf8EncodeChar) w.store, i', .ok ()) ∧ i'.writeonly = i.writeonly := by
    unfold append
    simp only [validate, PyText.len, PyText.encode, hlen, ne_eq, not_true, if_false]
    unfold addCode
    by_cases hw : i.writeonly = true
    · simp only [hw, if_true]
      exact ⟨i, rfl, hw⟩
    · have hw : i.writeonly = false := by simpa using hw
      simp only [hw, hlen, ne_eq, not_true, if_false, Bool.false_eq_true, if_true]
      exact ⟨_, rfl, rfl⟩
  obtain ⟨i', happ, hwo⟩ := happ
  have hstep : step np w (.append j (.bytes c) (.str (js.dumps ⟨r.doc, timesOf r.seg.ts, r.extra⟩)) r.id true) =
      ({ w with store := Store.put r.id (c ++ (js.dumps ⟨r.doc, timesOf r.seg.ts, r.extra⟩).flatMap String.utf8EncodeChar) w.store, insts := w.insts.set j i' }, .ok []) := by
    simp only [step, hj, happ]
  refine ⟨_, hstep, ⟨?_, ?_, ?_, ?_⟩, ?_⟩
  · obtain ⟨ops, h1, h2, h3, h4, h5, h6⟩ := h.hist
    refine ⟨ops ++ [.append j (.bytes c) (.str (js.dumps ⟨r.doc, timesOf r.seg.ts, r.extra⟩)) r.id true], ?_, ?_, ?_, ?_, ?_, ?_⟩
    · unfold FreshIds at h1 ⊢
      rw [List.filterMap_append, h6]
      rw [h6] at h1
      simp only [List.filterMap_cons, newId?, List.filterMap_nil]
      rw [List.nodup_append]
      refine ⟨h1, by simp, ?_⟩
      intro a ha b hb
      simp only [List.mem_singleton] at hb
      subst hb
      rintro rfl
      exact hid ha
    · intro k c' d id hm
      rcases List.mem_append.1 hm with hm | hm
      · exact h2 k c' d id hm
      · simp at hm
    · intro k c' d id b hm
      rcases List.mem_append.1 hm with hm | hm
      · exact h3 k c' d id b hm
      · simp only [List.mem_singleton, Op.append.injEq] at hm
        rw [hm.2.1]
        trivial
    · rw [run_snoc, h4, hstep]
    · rw [accepted_snoc, h5, h4, hstep]
      simp only [newRec, PyText.encode, List.map_append, List.map_cons, List.map_nil, recOf, hcode]
    · rw [List.filterMap_append, h6]
      simp [newId?]
  · exact h.size
  · exact h.pos
  · intro r' hr'
    rcases List.mem_append.1 hr' with hr' | hr'
    · exact h.durs r' hr'
    · rw [List.mem_singleton] at hr'
      subst hr'
      exact ⟨hd, c, hc⟩
  · intro j' a ha
    by_cases e : j = j'
    · subst e
      rw [hj] at ha
      cases ha
      exact ⟨i', by simp [hlt], hwo⟩
    · exact ⟨a, by simpa [List.getElem?_set_ne e] using ha, rfl⟩

theorem encodeTimeSlice_some (t : TimeSlice) (h : t.duration ≠ none) : encodeTimeSlice t = .ok (timesOf t) := by
  unfold encodeTimeSlice timesOf
  cases hd : t.duration with
  | none => exact absurd hd h
  | some d => rfl

/-- What one round of `add` does. -/
theorem addSegment_spec {X : Type} (np : Numpy) (js : Json X) {w : World} {sh : Shelf X} (h : Behind np js w sh) (x : Index X) (hx : Attached w x)
    (doc : List Char) (s : Segment) (newId : Nat) (hid : newId ∉ sh.rows.map Row.id) :
    ∃ w' x' r, addSegment np js w x doc s newId = (w', x', r) ∧ Attached w' x' ∧ Keeps w w' ∧ x'.extra = x.extra ∧ x'.writeonly = x.writeonly ∧
      (∀ c, Codes.encodeQuery s.data = .ok c → s.ts.duration.isSome = true ∧ sizeOk sh.size c = true →
        r = .ok () ∧ Behind np js w' ⟨some c.length, sh.rows ++ [⟨doc, s, x.extra.map fun f => f doc s.ts, newId⟩]⟩) ∧
      (¬ (∃ c, Codes.encodeQuery s.data = .ok c ∧ s.ts.duration.isSome = true ∧ sizeOk sh.size c = true) → (∃ e, r = .error e) ∧ Behind np js w' sh) := by
  cases hc : Codes.encodeQuery s.data with
  | error e =>
    refine ⟨w, x, .error e, ?_, hx, Keeps.refl w, rfl, rfl, ?_, ?_⟩
    · simp only [addSegment, hc]
    · intro c h'; cases h'
    · intro _; exact ⟨⟨e, rfl⟩, h⟩
  | ok c =>
    cases hd : s.ts.duration with
    | none =>
      refine ⟨w, x, .error .attributeError, ?_, hx, Keeps.refl w, rfl, rfl, ?_, ?_⟩
      · simp only [addSegment, hc, encodeTimeSlice, hd]
      · intro c _ h'; simp at h'
      · intro _; exact ⟨⟨_, rfl⟩, h⟩
    | some d =>
      have hd' : s.ts.duration ≠ none := by rw [hd]; simp
      have henc := encodeTimeSlice_some s.ts hd'
      -- appending with an index whose database is open
      have happend : ∀ (w₁ : World) (sh₁ : Shelf X) (x₁ : Index X) (j : Nat) (i : Inst), Behind np js w₁ sh₁ → sh₁.rows = sh.rows → x₁.db = some j →
          w₁.insts[j]? = some i → Keeps w w₁ → Attached w₁ x₁ → x₁.extra = x.extra → x₁.writeonly = x.writeonly →
          (sh₁.size = some c.length → ∃ w₂, step np w₁ (.append (x₁.db.getD 0) (.bytes c) (.str (js.dumps ⟨doc, timesOf s.ts, x.extra.map fun f => f doc s.ts⟩)) newId true) = (w₂, .ok []) ∧
            Behind np js w₂ ⟨some c.length, sh.rows ++ [⟨doc, s, x.extra.map fun f => f doc s.ts, newId⟩]⟩ ∧ Keeps w w₂ ∧ Attached w₂ x₁) ∧
          (∀ n, sh₁.size = some n → n ≠ c.length → step np w₁ (.append (x₁.db.getD 0) (.bytes c) (.str (js.dumps ⟨doc, timesOf s.ts, x.extra.map fun f => f doc s.ts⟩)) newId true) = (w₁, .error .valueError)) := by
        intro w₁ sh₁ x₁ j i hb hrows hj hi hk hat hex hwo
        constructor
        · intro hsz
          obtain ⟨w₂, e1, e2, e3⟩ := append_fits hb ⟨doc, s, x.extra.map fun f => f doc s.ts, newId⟩ c hc hd' hsz j i hi (by rw [hrows]; exact hid)
          refine ⟨w₂, ?_, ?_, hk.trans e3, hat.keep e3⟩
          · rw [hj]; exact e1
          · rw [hsz, hrows] at e2; exact e2
        · intro n hsz hne
          rw [hj]
          refine C15_append_wrong_size np w₁ j i hi _ _ ?_ newId true
          have := (hb.inv.insts i (List.mem_of_getElem? hi)).1
          rw [hb.size, hsz] at this
          cases this
          simpa [PyText.len] using fun e => hne e.symm
      cases hxdb : x.db with
      | some j =>
        obtain ⟨i, hi, hiw⟩ := hx j hxdb
        have hinit : initDb w x (some c) = (w, .ok x) := by simp only [initDb, hxdb]
        have hcsz := (h.inv.insts i (List.mem_of_getElem? hi)).1
        rw [h.size] at hcsz
        obtain ⟨ha1, ha2⟩ := happend w sh x j i h rfl hxdb hi (Keeps.refl w) hx rfl rfl
        by_cases hlen : i.codeSize = c.length
        · obtain ⟨w₂, e1, e2, e3, e4⟩ := ha1 (by rw [hcsz, hlen])
          refine ⟨w₂, x, .ok (), ?_, e4, e3, rfl, rfl, ?_, ?_⟩
          · simp only [addSegment, hc, henc, hinit, e1]
          · intro c' h' _; cases h'; exact ⟨rfl, e2⟩
          · intro hno
            exact absurd ⟨c, rfl, by simp, by simp [sizeOk, hcsz, hlen]⟩ hno
        · refine ⟨w, x, .error .valueError, ?_, hx, Keeps.refl w, rfl, rfl, ?_, ?_⟩
          · simp only [addSegment, hc, henc, hinit, ha2 _ hcsz hlen]
          · intro c' h' hf; cases h'
            simp only [sizeOk, hcsz, decide_eq_true_eq] at hf
            exact absurd hf.2.symm hlen
          · intro _; exact ⟨⟨_, rfl⟩, h⟩
      | none =>
        cases hsz : sh.size with
        | some n =>
          have hpos := h.pos n hsz
          -- the code size names the database, or no size is named, or it is refused
          by_cases hopen : c = [] ∨ c.length = n
          · have harg : sizeArg (some c) = none ∨ sizeArg (some c) = some n := by
              cases c with
              | nil => exact Or.inl rfl
              | cons b bs =>
                rcases hopen with h' | h'
                · cases h'
                · right; simp only [sizeArg]; rw [← h']; rfl
            obtain ⟨w₁, i, ho, hb, hk, hi, hiw⟩ := open_known h n hsz (sizeArg (some c)) harg x.writeonly
            have hinit : initDb w x (some c) = (w₁, .ok { x with db := some w.insts.length }) := by simp only [initDb, hxdb, ho]
            have hat : Attached w₁ ({ x with db := some w.insts.length } : Index X) := by
              intro j' hj'; cases hj'; exact ⟨i, hi, hiw⟩
            obtain ⟨ha1, ha2⟩ := happend w₁ sh { x with db := some w.insts.length } w.insts.length i hb rfl rfl hi hk hat rfl rfl
            by_cases hlen : n = c.length
            · obtain ⟨w₂, e1, e2, e3, e4⟩ := ha1 (by rw [hsz, hlen])
              refine ⟨w₂, { x with db := some w.insts.length }, .ok (), ?_, e4, e3, rfl, rfl, ?_, ?_⟩
              · simp only [addSegment, hc, henc, hinit, e1]
              · intro c' h' _; cases h'; exact ⟨rfl, e2⟩
              · intro hno
                exact absurd ⟨c, rfl, by simp, by simp [sizeOk, hlen]⟩ hno
            · refine ⟨w₁, { x with db := some w.insts.length }, .error .valueError, ?_, hat, hk, rfl, rfl, ?_, ?_⟩
              · simp only [addSegment, hc, henc, hinit, ha2 n hsz hlen]
              · intro c' h' hf; cases h'
                simp only [sizeOk, decide_eq_true_eq] at hf
                exact absurd hf.2.symm hlen
              · intro _; exact ⟨⟨_, rfl⟩, hb⟩
          · simp only [not_or] at hopen
            obtain ⟨hne, hlen⟩ := hopen
            have harg : sizeArg (some c) = some c.length := by
              cases c with
              | nil => exact absurd rfl hne
              | cons b bs => rfl
            have ho : openDb w (sizeArg (some c)) x.writeonly = (w, .error .valueError) := by
              apply open_refused
              rw [harg, h.size, hsz]
              have : c.length ≠ 0 := by simpa using hne
              simp [openSize, hlen, this]
            have hinit : initDb w x (some c) = (w, .error .valueError) := by simp only [initDb, hxdb, ho]
            refine ⟨w, x, .error .valueError, ?_, hx, Keeps.refl w, rfl, rfl, ?_, ?_⟩
            · simp only [addSegment, hc, henc, hinit]
            · intro c' h' hf; cases h'
              simp only [sizeOk, decide_eq_true_eq] at hf
              exact absurd hf.2 hlen
            · intro _; exact ⟨⟨_, rfl⟩, h⟩
        | none =>
          by_cases hgood : 0 < c.length ∧ c.length % 8 = 0
          · have harg : sizeArg (some c) = some c.length := by
              cases c with
              | nil => simp at hgood
              | cons b bs => rfl
            obtain ⟨w₁, i, ho, hb, hk, hi, hiw⟩ := open_new h hsz c.length hgood.2 hgood.1 x.writeonly
            have hinit : initDb w x (some c) = (w₁, .ok { x with db := some w.insts.length }) := by simp only [initDb, hxdb, harg, ho]
            have hat : Attached w₁ ({ x with db := some w.insts.length } : Index X) := by
              intro j' hj'; cases hj'; exact ⟨i, hi, hiw⟩
            obtain ⟨ha1, _⟩ := happend w₁ ⟨some c.length, sh.rows⟩ { x with db := some w.insts.length } w.insts.length i hb rfl rfl hi hk hat rfl rfl
            obtain ⟨w₂, e1, e2, e3, e4⟩ := ha1 rfl
            refine ⟨w₂, { x with db := some w.insts.length }, .ok (), ?_, e4, e3, rfl, rfl, ?_, ?_⟩
            · simp only [addSegment, hc, henc, hinit, e1]
            · intro c' h' _; cases h'; exact ⟨rfl, e2⟩
            · intro hno
              exact absurd ⟨c, rfl, by simp, by simp [sizeOk, hgood.1, hgood.2]⟩ hno
          · have ho : openDb w (sizeArg (some c)) x.writeonly = (w, .error .valueError) := by
              apply open_refused
              rw [h.size, hsz]
              cases c with
              | nil => rfl
              | cons b bs =>
                have : ¬ (bs.length + 1) % 8 = 0 := fun e => hgood ⟨by simp, by simpa using e⟩
                simp [sizeArg, openSize, this]
            have hinit : initDb w x (some c) = (w, .error .valueError) := by simp only [initDb, hxdb, ho]
            refine ⟨w, x, .error .valueError, ?_, hx, Keeps.refl w, rfl, rfl, ?_, ?_⟩
            · simp only [addSegment, hc, henc, hinit]
            · intro c' h' hf; cases h'
              simp only [sizeOk, decide_eq_true_eq] at hf
              exact absurd hf.2 hgood
            · intro _; exact ⟨⟨_, rfl⟩, h⟩

theorem put_ids {X : Type} (doc : List Char) (ex : Option (List Char → TimeSlice → X)) : ∀ (segs : List (Segment × Nat)) (sh : Shelf X),
    ∃ k, ((put doc ex sh segs).1.rows.map Row.id) = sh.rows.map Row.id ++ (segs.map Prod.snd).take k := by
  intro segs
  induction segs with
  | nil => intro sh; exact ⟨0, by simp [put]⟩
  | cons s ss ih =>
    intro sh
    unfold put
    split
    · exact ⟨0, by simp⟩
    · rename_i c _
      split
      · obtain ⟨k, hk⟩ := ih ⟨some c.length, sh.rows ++ [⟨doc, s.1, ex.map fun f => f doc s.1.ts, s.2⟩]⟩
        refine ⟨k + 1, ?_⟩
        rw [hk]
        simp
      · exact ⟨0, by simp⟩

theorem add_spec {X : Type} (np : Numpy) (js : Json X) (doc : List Char) : ∀ (segs : List (Segment × Nat)) (w : World) (sh : Shelf X) (x : Index X),
    Behind np js w sh → Attached w x → (sh.rows.map Row.id ++ segs.map Prod.snd).Nodup →
    ∃ w' x' r, add np js w x doc segs = (w', x', r) ∧ Behind np js w' (put doc x.extra sh segs).1 ∧ (r = .ok () ↔ (put doc x.extra sh segs).2 = true) ∧
      Attached w' x' ∧ Keeps w w' ∧ x'.extra = x.extra ∧ x'.writeonly = x.writeonly := by
  intro segs
  induction segs with
  | nil => intro w sh x h hx _; exact ⟨w, x, .ok (), rfl, h, by simp [put], hx, Keeps.refl w, rfl, rfl⟩
  | cons s ss ih =>
    intro w sh x h hx hn
    have hid : s.2 ∉ sh.rows.map Row.id := by
      intro hm
      rw [List.nodup_append] at hn
      exact hn.2.2 _ hm _ (by simp) rfl
    obtain ⟨w₁, x₁, r, e1, e2, e3, e4, e5, e6, e7⟩ := addSegment_spec np js h x hx doc s.1 s.2 hid
    by_cases hf : ∃ c, Codes.encodeQuery s.1.data = .ok c ∧ s.1.ts.duration.isSome = true ∧ sizeOk sh.size c = true
    · obtain ⟨c, hc, hf⟩ := hf
      obtain ⟨rfl, hb⟩ := e6 c hc hf
      obtain ⟨w₂, x₂, r₂, f1, f2, f3, f4, f5, f6, f7⟩ := ih w₁ _ x₁ hb e2 (by
        simp only [List.map_append, List.map_cons, List.map_nil, List.append_assoc, List.singleton_append] at hn ⊢
        exact hn)
      have hput : put doc x.extra sh (s :: ss) = put doc x.extra ⟨some c.length, sh.rows ++ [⟨doc, s.1, x.extra.map fun f => f doc s.1.ts, s.2⟩]⟩ ss := by
        simp only [put, hc]
        exact if_pos hf
      refine ⟨w₂, x₂, r₂, ?_, ?_, ?_, f4, e3.trans f5, f6.trans e4, f7.trans e5⟩
      · simp only [add, e1, f1]
      · rw [hput, ← e4]; rw [e4] at f2 ⊢; exact f2
      · rw [hput]; rw [e4] at f3; exact f3
    · obtain ⟨⟨e, rfl⟩, hb⟩ := e7 hf
      have hput : put doc x.extra sh (s :: ss) = (sh, false) := by
        simp only [put]
        cases hc : Codes.encodeQuery s.1.data with
        | error _ => rfl
        | ok c => exact if_neg fun h' => hf ⟨c, hc, h'.1, h'.2⟩
      refine ⟨w₁, x₁, .error e, ?_, ?_, ?_, e2, e3, e4, e5⟩
      · simp only [add, e1]
      · rw [hput]; exact hb
      · rw [hput]; simp

theorem behind_search {X : Type} {np : Numpy} {js : Json X} {w : World} {sh : Shelf X} (h : Behind np js w sh) (j : Nat) (q : PyText) (n : Nat) (mt sort : Bool) :
    Behind np js (step np w (.search j q n mt sort)).1 sh ∧ Keeps w (step np w (.search j q n mt sort)).1 := by
  constructor
  · refine ⟨?_, ?_, h.pos, h.durs⟩
    · obtain ⟨ops, h1, h2, h3, h4, h5, h6⟩ := h.hist
      refine ⟨ops ++ [.search j q n mt sort], ?_, ?_, ?_, ?_, ?_, ?_⟩
      · unfold FreshIds at h1 ⊢
        rw [List.filterMap_append, show List.filterMap newId? [Op.search j q n mt sort] = [] from rfl, List.append_nil]
        exact h1
      · intro k c d id hm
        rcases List.mem_append.1 hm with hm | hm
        · exact h2 k c d id hm
        · simp at hm
      · intro k c d id b hm
        rcases List.mem_append.1 hm with hm | hm
        · exact h3 k c d id b hm
        · simp at hm
      · rw [run_snoc, h4]
      · rw [accepted_snoc, h5]
        simp [newRec]
      · rw [List.filterMap_append, show List.filterMap newId? [Op.search j q n mt sort] = [] from rfl, List.append_nil, h6]
    · rw [step_codesize, h.size]
      cases sh.size <;> rfl
  · intro j' a ha
    simp only [step]
    cases hj : w.insts[j]? with
    | none => exact ⟨a, ha, rfl⟩
    | some i =>
      have hlt : j < w.insts.length := (List.getElem?_eq_some_iff.1 hj).1
      simp only []
      by_cases e : j = j'
      · subst e
        rw [hj] at ha
        cases ha
        refine ⟨(HammingDb.search np w.store a q n mt sort).1, by simp [hlt], ?_⟩
        rcases search_inst np w.store a q n mt sort with h' | ⟨h1, h2⟩
        · rw [h']
        · unfold checkExternal at h2
          split at h2
          · unfold catchUp at h2
            exact catchUpLoop_wo _ _ _ h2
          · have := Except.ok.inj h2
            rw [← this]
      · exact ⟨a, by simpa [List.getElem?_set_ne e] using ha, rfl⟩

/-- What `initDb` does before a search. -/
theorem initDb_search {X : Type} {np : Numpy} {js : Json X} {w : World} {sh : Shelf X} (h : Behind np js w sh) (x : Index X) (hx : Attached w x) :
    (x.db = none ∧ sh.size = none ∧ initDb w x none = (w, .error .valueError)) ∨
    (∃ w' x' j, initDb w x none = (w', .ok x') ∧ Behind np js w' sh ∧ Keeps w w' ∧ Attached w' x' ∧ x'.db = some j ∧ sh.size ≠ none ∧
      x'.extra = x.extra ∧ x'.writeonly = x.writeonly) := by
  cases hxdb : x.db with
  | some j =>
    right
    obtain ⟨i, hi, hiw⟩ := hx j hxdb
    have hcsz := (h.inv.insts i (List.mem_of_getElem? hi)).1
    rw [h.size] at hcsz
    exact ⟨w, x, j, by simp only [initDb, hxdb], h, Keeps.refl w, hx, hxdb, by rw [hcsz]; simp, rfl, rfl⟩
  | none =>
    cases hsz : sh.size with
    | none =>
      left
      have ho : openDb w none x.writeonly = (w, .error .valueError) := by
        apply open_refused
        rw [h.size, hsz]
        rfl
      exact ⟨rfl, rfl, by simp only [initDb, hxdb, sizeArg, ho]⟩
    | some n =>
      right
      obtain ⟨w₁, i, ho, hb, hk, hi, hiw⟩ := open_known h n hsz none (Or.inl rfl) x.writeonly
      refine ⟨w₁, { x with db := some w.insts.length }, w.insts.length, by simp only [initDb, hxdb, sizeArg, ho], hb, hk, ?_, rfl, by simp, rfl, rfl⟩
      intro j' hj'; cases hj'; exact ⟨i, hi, hiw⟩

structure Rel {X : Type} (np : Numpy) (js : Json X) (s : State X) (exs : List (Option (List Char → TimeSlice → X))) (sh : Shelf X) : Prop where
  behind : Behind np js s.world sh
  extras : s.indexes.map Index.extra = exs
  attached : ∀ x ∈ s.indexes, Attached s.world x

theorem rel_set {X : Type} {np : Numpy} {js : Json X} {s : State X} {exs : List (Option (List Char → TimeSlice → X))} {sh sh' : Shelf X} (h : Rel np js s exs sh)
    (k : Nat) (x x' : Index X) (hk : s.indexes[k]? = some x) (w' : World) (hb : Behind np js w' sh') (hat : Attached w' x') (hkeep : Keeps s.world w')
    (hex : x'.extra = x.extra) : Rel np js ⟨w', s.indexes.set k x'⟩ exs sh' := by
  refine ⟨hb, ?_, ?_⟩
  · rw [← h.extras, List.map_set, hex]
    have hlt : k < s.indexes.length := (List.getElem?_eq_some_iff.1 hk).1
    have : (s.indexes.map Index.extra)[k]'(by simpa using hlt) = x.extra := by
      simp [(List.getElem?_eq_some_iff.1 hk).2]
    rw [← this]
    exact List.set_getElem_self _
  · intro y hy
    rcases List.mem_or_eq_of_mem_set hy with hy | rfl
    · exact (h.attached y hy).keep hkeep
    · exact hat

/-- The extra_data functions of the index objects after a history. -/
def extrasAfter {X : Type} : List (Option (List Char → TimeSlice → X)) → List (Act X) → List (Option (List Char → TimeSlice → X))
  | exs, [] => exs
  | exs, .create _ ex :: as => extrasAfter (exs ++ [ex]) as
  | exs, .add .. :: as => extrasAfter exs as
  | exs, .search .. :: as => extrasAfter exs as

theorem acts_rel {X : Type} (np : Numpy) (js : Json X) : ∀ (as : List (Act X)) (s : State X) (exs : List (Option (List Char → TimeSlice → X))) (sh : Shelf X),
    Rel np js s exs sh → (sh.rows.map Row.id ++ drawn as).Nodup → Rel np js (acts np js s as) (extrasAfter exs as) (shelf exs sh as) := by
  intro as
  induction as with
  | nil => intro s exs sh h _; exact h
  | cons a as ih =>
    intro s exs sh h hn
    cases a with
    | create wo ex =>
      simp only [acts, shelf, extrasAfter]
      refine ih _ _ _ ?_ hn
      simp only [act, create]
      cases hsz : sh.size with
      | none =>
        rw [open_refused none wo (by rw [h.behind.size, hsz]; rfl)]
        refine ⟨h.behind, by simp [h.extras], ?_⟩
        intro y hy
        rcases List.mem_append.1 hy with hy | hy
        · exact h.attached y hy
        · rw [List.mem_singleton] at hy; subst hy
          intro j hj; cases hj
      | some n =>
        obtain ⟨w₁, i, ho, hb, hk, hi, hiw⟩ := open_known h.behind n hsz none (Or.inl rfl) wo
        rw [ho]
        refine ⟨hb, by simp [h.extras], ?_⟩
        intro y hy
        rcases List.mem_append.1 hy with hy | hy
        · exact (h.attached y hy).keep hk
        · rw [List.mem_singleton] at hy; subst hy
          intro j hj; cases hj; exact ⟨i, hi, hiw⟩
    | add k doc segs =>
      simp only [acts, shelf, extrasAfter, act]
      simp only [drawn] at hn
      cases hk : s.indexes[k]? with
      | none =>
        have : exs[k]? = none := by
          rw [← h.extras, List.getElem?_map, hk]; rfl
        simp only [this]
        refine ih _ _ _ h ?_
        rw [List.nodup_append] at hn ⊢
        exact ⟨hn.1, (List.nodup_append.1 hn.2.1).2.1, fun a ha b hb => hn.2.2 a ha b (List.mem_append_right _ hb)⟩
      | some x =>
        have hex : exs[k]? = some x.extra := by
          rw [← h.extras, List.getElem?_map, hk]; rfl
        simp only [hex]
        have hn1 : (sh.rows.map Row.id ++ segs.map Prod.snd).Nodup := by
          rw [← List.append_assoc] at hn
          exact (List.nodup_append.1 hn).1
        obtain ⟨w', x', r, e1, e2, e3, e4, e5, e6, e7⟩ := add_spec np js doc segs s.world sh x h.behind (h.attached x (List.mem_of_getElem? hk)) hn1
        have hrel := rel_set h k x x' hk w' e2 e4 e5 e6
        have hn2 : ((put doc x.extra sh segs).1.rows.map Row.id ++ drawn as).Nodup := by
          obtain ⟨m, hm⟩ := put_ids doc x.extra segs sh
          rw [hm]
          refine hn.sublist ?_
          rw [List.append_assoc]
          exact List.Sublist.append (List.Sublist.refl _) (List.Sublist.append (List.take_sublist _ _) (List.Sublist.refl _))
        rw [e1]
        cases r with
        | ok u => exact ih _ _ _ hrel hn2
        | error e => exact ih _ _ _ hrel hn2
    | search k q n mt sort =>
      simp only [acts, shelf, extrasAfter, act]
      cases hk : s.indexes[k]? with
      | none => exact ih _ _ _ h hn
      | some x =>
        have hat := h.attached x (List.mem_of_getElem? hk)
        have hrel : ∀ w' x' r, search np js s.world x q n mt sort = (w', x', r) → Rel np js ⟨w', s.indexes.set k x'⟩ exs sh := by
          intro w' x' r he
          unfold search at he
          rcases initDb_search h.behind x hat with ⟨_, _, hi⟩ | ⟨w₁, x₁, j, hi, hb, hkeep, hat₁, hj, _, hex, _⟩
          · simp only [hi] at he
            cases he
            exact rel_set h k x x hk _ h.behind hat (Keeps.refl _) rfl
          · simp only [hi] at he
            cases hq : Codes.encodeQuery q with
            | error e =>
              simp only [hq] at he
              cases he
              exact rel_set h k x x' hk _ hb hat₁ hkeep hex
            | ok code =>
              simp only [hq] at he
              obtain ⟨hb2, hkeep2⟩ := behind_search hb (x₁.db.getD 0) (.bytes code) n mt sort
              have hw : (step np w₁ (.search (x₁.db.getD 0) (.bytes code) n mt sort)).1 = w' := by
                exact congrArg Prod.fst he
              have hx' : x₁ = x' := congrArg (fun t => t.2.1) he
              subst hx'
              rw [hw] at hb2 hkeep2
              exact rel_set h k x x₁ hk _ hb2 (hat₁.keep hkeep2) (hkeep.trans hkeep2) hex
        exact ih _ _ _ (hrel _ _ _ rfl) hn

theorem start_rel {X : Type} (np : Numpy) (js : Json X) : Rel np js ({} : State X) [] {} := by
  refine ⟨⟨⟨[], ?_, ?_, ?_, rfl, rfl, rfl⟩, rfl, ?_, ?_⟩, rfl, ?_⟩
  · simp [FreshIds]
  · intro k c d id h; simp at h
  · intro k c d id b h; simp at h
  · intro n h; cases h
  · intro r h; simp at h
  · intro x h; simp at h

/-! ## Claims -/

/-- What is written as JSON can be read back. -/
def RoundTrips {X : Type} (js : Json X) : Prop := ∀ e, js.loads ((js.dumps e).flatMap String.utf8EncodeChar) = .ok e

/-- Times that can be stored (C17): not negative. -/
def Timed (t : TimeSlice) : Prop := Int64Count t.start ∧ 0 ≤ t.start.count ∧ ∀ d, t.duration = some d → Int64Count d ∧ 0 ≤ d.count

/-- A result shows an indexed segment: its document, its start and duration, and its extra data if the index has such. -/
def Shows {X : Type} (x : Index X) (r : Row X) (y : Result X) : Prop :=
  y.docId = r.doc ∧ y.ts.start.toPs = r.seg.ts.start.toPs ∧ y.ts.duration = r.seg.ts.duration ∧ y.extra = if x.extra.isSome then r.extra else none

theorem parse_row {X : Type} (js : Json X) (hjs : RoundTrips js) (x : Index X) (r : Row X) (hd : r.seg.ts.duration ≠ none) (ht : Timed r.seg.ts)
    (hx : x.extra ≠ none → r.extra ≠ none) : ∃ y, parse js x (recOf js r).data = .ok y ∧ Shows x r y := by
  obtain ⟨d, hd'⟩ : ∃ d, r.seg.ts.duration = some d := Option.ne_none_iff_exists'.mp hd
  obtain ⟨h1, h2, h3⟩ := ht
  obtain ⟨h4, h5⟩ := h3 d hd'
  obtain ⟨p, ts', e1, e2, e3, e4⟩ := C17_timeslice_roundtrip r.seg.ts d hd' h1 h2 h4 h5
  rw [encodeTimeSlice_some _ hd] at e1
  cases e1
  have hl : js.loads (recOf js r).data = .ok ⟨r.doc, timesOf r.seg.ts, r.extra⟩ := hjs _
  cases hex : x.extra with
  | none =>
    refine ⟨⟨r.doc, ts', none⟩, ?_, rfl, e3, by rw [e4, hd'], by simp [hex]⟩
    simp only [parse, hl, e2, hex]
  | some f =>
    obtain ⟨y, hy⟩ : ∃ y, r.extra = some y := Option.ne_none_iff_exists'.mp (hx (by rw [hex]; simp))
    refine ⟨⟨r.doc, ts', some y⟩, ?_, rfl, e3, by rw [e4, hd'], by simp [hex, hy]⟩
    simp only [parse, hl, e2, hex, hy]

theorem parseAll_rows {X : Type} (js : Json X) (hjs : RoundTrips js) (x : Index X) : ∀ rows : List (Row X),
    (∀ r ∈ rows, r.seg.ts.duration ≠ none ∧ Timed r.seg.ts ∧ (x.extra ≠ none → r.extra ≠ none)) →
    ∃ ys, parseAll js x (rows.map fun r => (recOf js r).data) = .ok ys ∧ List.Forall₂ (Shows x) rows ys := by
  intro rows
  induction rows with
  | nil => intro _; exact ⟨[], rfl, List.Forall₂.nil⟩
  | cons r rows ih =>
    intro h
    obtain ⟨h1, h2, h3⟩ := h r List.mem_cons_self
    obtain ⟨y, e1, e2⟩ := parse_row js hjs x r h1 h2 h3
    obtain ⟨ys, e3, e4⟩ := ih fun r' hr' => h r' (List.mem_cons_of_mem _ hr')
    exact ⟨y :: ys, by simp only [List.map_cons, parseAll, e1, e3], List.Forall₂.cons e2 e4⟩

theorem perm_map_split {α β : Type} (f : α → β) (l : List α) : ∀ a b : List β, (a ++ b).Perm (l.map f) → ∃ a' b' : List α, (a' ++ b').Perm l ∧ a = a'.map f ∧ b = b'.map f := by
  intro a b h
  have key : ∀ (t : List β) (l : List α), t.Perm (l.map f) → ∃ l' : List α, l'.Perm l ∧ t = l'.map f := by
    intro t
    induction t with
    | nil =>
      intro l h
      have : l = [] := by
        cases l with
        | nil => rfl
        | cons x xs => exact absurd h.length_eq (by simp)
      exact ⟨[], by rw [this], rfl⟩
    | cons y t ih =>
      intro l h
      have hy : y ∈ l.map f := h.mem_iff.1 List.mem_cons_self
      obtain ⟨x, hx, rfl⟩ := List.mem_map.1 hy
      obtain ⟨s, u, rfl⟩ := List.append_of_mem hx
      have h2 : (f x :: t).Perm (f x :: (s ++ u).map f) := by
        refine h.trans ?_
        rw [← List.map_cons]
        exact List.perm_middle.map f
      obtain ⟨l', e1, e2⟩ := ih (s ++ u) (List.perm_cons _ |>.1 h2)
      exact ⟨x :: l', (List.Perm.cons x e1).trans List.perm_middle.symm, by rw [e2]; rfl⟩
  obtain ⟨l', e1, e2⟩ := key _ l h
  refine ⟨l'.take a.length, l'.drop a.length, by rw [List.take_append_drop]; exact e1, ?_, ?_⟩
  · rw [List.map_take, ← e2]; simp
  · rw [List.map_drop, ← e2]; simp

theorem raw_search {X : Type} (np : Numpy) (hl : Legal np) (js : Json X) (as : List (Act X)) (hids : (drawn as).Nodup)
    (k : Nat) (x : Index X) (hk : (acts np js {} as).indexes[k]? = some x) (hw : x.writeonly = false)
    (q : Codes.Feature) (c : List UInt8) (hq : Codes.encodeQuery q = .ok c) (hsize : (shelf [] {} as).size = some c.length)
    (n : Nat) (hn : n < (shelf [] {} as).rows.length) (mt sort : Bool) :
    ∃ chosen rest : List (Row X), (chosen ++ rest).Perm (shelf [] {} as).rows ∧ chosen.length = n ∧
      (act np js (acts np js {} as) (.search k q n mt sort)).2 = parseAll js x (chosen.map fun r => (recOf js r).data) ∧
      (∀ r ∈ chosen, r.seg.ts.duration ≠ none) ∧
      (∀ a ∈ chosen, ∀ b ∈ rest, bitDistance c (codeOf a.seg) ≤ bitDistance c (codeOf b.seg)) ∧
      (sort = true → chosen.Pairwise fun a b => bitDistance c (codeOf a.seg) ≤ bitDistance c (codeOf b.seg)) := by
  have hrel := acts_rel np js as {} [] {} (start_rel np js) (by simpa using hids)
  generalize shelf [] {} as = sh at *
  generalize acts np js {} as = s at *
  have hat := hrel.attached x (List.mem_of_getElem? hk)
  rcases initDb_search hrel.behind x hat with ⟨_, h0, _⟩ | ⟨w₁, x₁, j, hi, hb, _, hat₁, hj, _, hex, hwo⟩
  · rw [h0] at hsize; cases hsize
  obtain ⟨i, hi2, hiw⟩ := hat₁ j hj
  obtain ⟨ops, h1, h2, h3, h4, h5, h6⟩ := hb.hist
  have hcs := (hb.inv.insts i (List.mem_of_getElem? hi2)).1
  rw [hb.size, hsize] at hcs
  obtain ⟨ch, re, e1, e2, e3, e4, e5⟩ := C12_nearest np hl ops h1 h2 h3 j i (by rw [h4]; exact hi2) (by rw [hiw, hwo, hw]) c (Option.some.inj hcs) n
    (by rw [h5]; simpa using hn) mt sort
  rw [h5] at e1
  rw [h4] at e3
  obtain ⟨chosen, rest, f1, rfl, rfl⟩ := perm_map_split (recOf js) sh.rows ch re e1
  have hmem : ∀ r ∈ chosen, r ∈ sh.rows := fun r hr => f1.mem_iff.1 (List.mem_append_left _ hr)
  refine ⟨chosen, rest, f1, by simpa using e2, ?_, fun r hr => (hb.durs r (hmem r hr)).1, ?_, ?_⟩
  · have e3' : (step np w₁ (.search (x₁.db.getD 0) (.bytes c) n mt sort)).2 = .ok (chosen.map fun r => (recOf js r).data) := by
      rw [hj]
      refine e3.trans ?_
      rw [List.map_map]
      rfl
    simp only [act, hk, search, hi, hq, e3', parsed]
  · intro a ha b hb'
    exact e4 _ (List.mem_map_of_mem ha) _ (List.mem_map_of_mem hb')
  · intro hs
    have := e5 hs
    rw [List.pairwise_map] at this
    exact this

/-- **C284**: after any history of actions by any number of index objects over one path, a search for fewer segments than are indexed returns the document and time (and
the extra data) of so many of the segments whose codes are nearest to the query, in order of distance if asked. -/
theorem C284_search {X : Type} (np : Numpy) (hl : Legal np) (js : Json X) (hjs : RoundTrips js) (as : List (Act X)) (hids : (drawn as).Nodup)
    (k : Nat) (x : Index X) (hk : (acts np js {} as).indexes[k]? = some x) (hw : x.writeonly = false)
    (q : Codes.Feature) (c : List UInt8) (hq : Codes.encodeQuery q = .ok c) (hsize : (shelf [] {} as).size = some c.length)
    (htimes : ∀ r ∈ (shelf [] {} as).rows, Timed r.seg.ts) (hextra : x.extra ≠ none → ∀ r ∈ (shelf [] {} as).rows, r.extra ≠ none)
    (n : Nat) (hn : n < (shelf [] {} as).rows.length) (mt sort : Bool) :
    ∃ chosen rest results, (chosen ++ rest).Perm (shelf [] {} as).rows ∧ chosen.length = n ∧
      (act np js (acts np js {} as) (.search k q n mt sort)).2 = .ok results ∧ List.Forall₂ (Shows x) chosen results ∧
      (∀ a ∈ chosen, ∀ b ∈ rest, bitDistance c (codeOf a.seg) ≤ bitDistance c (codeOf b.seg)) ∧
      (sort = true → chosen.Pairwise fun a b => bitDistance c (codeOf a.seg) ≤ bitDistance c (codeOf b.seg)) := by
  obtain ⟨chosen, rest, f1, f2, f3, f4, f5, f6⟩ := raw_search np hl js as hids k x hk hw q c hq hsize n hn mt sort
  have hmem : ∀ r ∈ chosen, r ∈ (shelf [] {} as).rows := fun r hr => f1.mem_iff.1 (List.mem_append_left _ hr)
  obtain ⟨ys, g1, g2⟩ := parseAll_rows js hjs x chosen fun r hr => ⟨f4 r hr, htimes r (hmem r hr), fun h => hextra h r (hmem r hr)⟩
  exact ⟨chosen, rest, ys, f1, f2, by rw [f3, g1], g2, f5, f6⟩

theorem byte_eq_of_bits (x y : UInt8) (h : ((List.range 8).filter fun i => x.toNat.testBit i != y.toNat.testBit i).length = 0) : x = y := by
  rw [List.length_eq_zero_iff, List.filter_eq_nil_iff] at h
  apply UInt8.toNat_inj.1
  apply Nat.eq_of_testBit_eq
  intro i
  by_cases hi : i < 8
  · have := h i (List.mem_range.2 hi)
    simpa using this
  · have hx := x.toNat_lt
    have hy := y.toNat_lt
    have hp : 2 ^ 8 ≤ 2 ^ i := Nat.pow_le_pow_right (by omega) (by omega)
    rw [Nat.testBit_lt_two_pow (by omega), Nat.testBit_lt_two_pow (by omega)]

theorem bitDistance_zero : ∀ a b : List UInt8, a.length = b.length → (bitDistance a b = 0 ↔ a = b) := by
  intro a
  induction a with
  | nil => intro b h; cases b with
    | nil => simp [bitDistance]
    | cons y ys => simp at h
  | cons x xs ih =>
    intro b h
    cases b with
    | nil => simp at h
    | cons y ys =>
      have h' : xs.length = ys.length := by simpa using h
      simp only [bitDistance, Nat.add_eq_zero_iff, List.cons.injEq, ih ys h']
      constructor
      · rintro ⟨h1, h2⟩; exact ⟨byte_eq_of_bits x y h1, h2⟩
      · rintro ⟨rfl, h2⟩; exact ⟨by simp, h2⟩

/-- **C285**: a sorted search for the code of an indexed segment begins with a segment that has exactly this code; if no other indexed segment has it, with that
segment. -/
theorem C285_self {X : Type} (np : Numpy) (hl : Legal np) (js : Json X) (hjs : RoundTrips js) (as : List (Act X)) (hids : (drawn as).Nodup)
    (k : Nat) (x : Index X) (hk : (acts np js {} as).indexes[k]? = some x) (hw : x.writeonly = false)
    (r : Row X) (hr : r ∈ (shelf [] {} as).rows) (htimes : ∀ r ∈ (shelf [] {} as).rows, Timed r.seg.ts)
    (hextra : x.extra ≠ none → ∀ r ∈ (shelf [] {} as).rows, r.extra ≠ none)
    (n : Nat) (h0 : 0 < n) (hn : n < (shelf [] {} as).rows.length) (mt : Bool) :
    ∃ a y ys, a ∈ (shelf [] {} as).rows ∧ codeOf a.seg = codeOf r.seg ∧ (act np js (acts np js {} as) (.search k r.seg.data n mt true)).2 = .ok (y :: ys) ∧ Shows x a y ∧
      ((∀ b ∈ (shelf [] {} as).rows, codeOf b.seg = codeOf r.seg → b = r) → a = r) := by
  have hrel := acts_rel np js as {} [] {} (start_rel np js) (by simpa using hids)
  obtain ⟨c, hc⟩ := (hrel.behind.durs r hr).2
  have hcode : codeOf r.seg = c := by simp only [codeOf, hc]
  have hsizes : ∀ b ∈ (shelf [] {} as).rows, (shelf [] {} as).size = some (codeOf b.seg).length := by
    intro b hb
    obtain ⟨ops, h1, h2, h3, h4, h5, h6⟩ := hrel.behind.hist
    have := history_exact np ops h1 h2 h3 (recOf js b) (by rw [h5]; exact List.mem_map_of_mem hb)
    rw [h4, hrel.behind.size] at this
    exact this
  have hsize := hsizes r hr
  rw [hcode] at hsize
  obtain ⟨chosen, rest, results, e1, e2, e3, e4, e5, e6⟩ := C284_search np hl js hjs as hids k x hk hw r.seg.data c hc hsize htimes hextra n hn mt true
  cases chosen with
  | nil => simp at e2; omega
  | cons a chosen =>
    cases results with
    | nil => cases e4
    | cons y ys =>
      rw [List.forall₂_cons] at e4
      have hamem : a ∈ (shelf [] {} as).rows := e1.mem_iff.1 (by simp)
      have hz : bitDistance c (codeOf r.seg) = 0 := by rw [hcode]; exact (bitDistance_zero c c rfl).2 rfl
      have ha : bitDistance c (codeOf a.seg) = 0 := by
        have hr' := e1.mem_iff.2 hr
        rcases List.mem_append.1 hr' with hr' | hr'
        · rcases List.mem_cons.1 hr' with rfl | hr'
          · exact hz
          · have := (List.pairwise_cons.1 (e6 rfl)).1 r hr'
            omega
        · have := e5 a List.mem_cons_self r hr'
          omega
      have hlen : c.length = (codeOf a.seg).length := by
        have := hsizes a hamem
        rw [hsize] at this
        exact Option.some.inj this
      have heq : codeOf a.seg = codeOf r.seg := by
        rw [hcode]; exact ((bitDistance_zero c _ hlen).1 ha).symm
      exact ⟨a, y, ys, hamem, heq, e3, e4.1, fun h => h a hamem heq⟩

/-- **C286** (exactly what happens): adding a document by any index object puts its segments on the shelf up to the first that cannot be, and returns normally exactly
if all could. -/
theorem C286_add {X : Type} (np : Numpy) (js : Json X) (as : List (Act X)) (k : Nat) (doc : List Char) (segs : List (Segment × Nat))
    (hids : (drawn (as ++ [.add k doc segs])).Nodup) (x : Index X) (hk : (acts np js {} as).indexes[k]? = some x) :
    shelf [] {} (as ++ [.add k doc segs]) = (put doc x.extra (shelf [] {} as) segs).1 ∧
    ((act np js (acts np js {} as) (.add k doc segs)).2 = .ok [] ↔ (put doc x.extra (shelf [] {} as) segs).2 = true) := by
  have hsplit : ∀ (as bs : List (Act X)), drawn (as ++ bs) = drawn as ++ drawn bs := by
    intro as bs
    induction as with
    | nil => rfl
    | cons a as ih => cases a <;> simp [drawn, ih]
  have hshelf : ∀ (as : List (Act X)) (exs : List (Option (List Char → TimeSlice → X))) (sh : Shelf X) (bs : List (Act X)),
      shelf exs sh (as ++ bs) = shelf (extrasAfter exs as) (shelf exs sh as) bs := by
    intro as
    induction as with
    | nil => intro exs sh bs; rfl
    | cons a as ih =>
      intro exs sh bs
      cases a with
      | create wo ex => simp only [List.cons_append, shelf, extrasAfter, ih]
      | add k' d sg =>
        simp only [List.cons_append, shelf, extrasAfter]
        cases exs[k']? <;> simp only [ih]
      | search => simp only [List.cons_append, shelf, extrasAfter, ih]
  rw [hsplit] at hids
  have h1 : (drawn as).Nodup := (List.nodup_append.1 hids).1
  have hrel := acts_rel np js as {} [] {} (start_rel np js) (by simpa using h1)
  have hdisj : ((shelf [] {} as).rows.map Row.id ++ segs.map Prod.snd).Nodup := by
    have hsub : ∀ (as : List (Act X)) (exs : List (Option (List Char → TimeSlice → X))) (sh : Shelf X),
        List.Sublist ((shelf exs sh as).rows.map Row.id) (sh.rows.map Row.id ++ drawn as) := by
      intro as
      induction as with
      | nil => intro exs sh; simp [shelf, drawn]
      | cons a as ih =>
        intro exs sh
        cases a with
        | create wo ex => exact ih _ _
        | add k' d sg =>
          simp only [shelf, drawn]
          cases exs[k']? with
          | none =>
            refine (ih exs sh).trans ?_
            exact List.Sublist.append (List.Sublist.refl _) (List.sublist_append_right _ _)
          | some ex =>
            refine (ih exs _).trans ?_
            obtain ⟨m, hm⟩ := put_ids d ex sg sh
            rw [hm, List.append_assoc]
            exact List.Sublist.append (List.Sublist.refl _) (List.Sublist.append (List.take_sublist _ _) (List.Sublist.refl _))
        | search => exact ih _ _
    have := hsub as [] {}
    refine hids.sublist ?_
    refine List.Sublist.append ?_ ?_
    · simpa using this
    · simp [drawn]
  have hex : (extrasAfter [] as)[k]? = some x.extra := by
    rw [← hrel.extras, List.getElem?_map, hk]; rfl
  constructor
  · rw [hshelf]
    simp only [shelf, hex]
  · obtain ⟨w', x', r, e1, e2, e3, e4, e5, e6, e7⟩ := add_spec np js doc segs _ _ x hrel.behind (hrel.attached x (List.mem_of_getElem? hk)) hdisj
    simp only [act, hk, e1]
    rw [← e3]
    cases r with
    | ok u => simp
    | error e => simp

/-- **C286, refuted**: a document whose second segment has a code of another size than the first is indexed with its first segment alone, and the call fails. -/
theorem C286_half_refuted {X : Type} (np : Numpy) (js : Json X) (doc : List Char) (t₁ t₂ : TimeSlice) (d₁ : Dur) (h₁ : t₁.duration = some d₁)
    (c₁ c₂ : List UInt8) (hc : 0 < c₁.length ∧ c₁.length % 8 = 0) (hne : c₂.length ≠ c₁.length) :
    let as : List (Act X) := [.create false none]
    let bad : Act X := .add 0 doc [(⟨t₁, .bytes c₁⟩, 0), (⟨t₂, .bytes c₂⟩, 1)]
    (shelf [] {} (as ++ [bad])).rows = [⟨doc, ⟨t₁, .bytes c₁⟩, none, 0⟩] ∧ (act np js (acts np js {} as) bad).2 ≠ .ok [] := by
  intro as bad
  have hk : (acts np js {} as).indexes[0]? = some ⟨false, none, none⟩ := by
    simp [as, acts, act, create, openDb, openSize]
  obtain ⟨e1, e2⟩ := C286_add np js as 0 doc [(⟨t₁, .bytes c₁⟩, 0), (⟨t₂, .bytes c₂⟩, 1)] (by simp [as, drawn]) _ hk
  have hput : put doc (none : Option (List Char → TimeSlice → X)) (shelf [] {} as) [(⟨t₁, .bytes c₁⟩, 0), (⟨t₂, .bytes c₂⟩, 1)] =
      (⟨some c₁.length, [⟨doc, ⟨t₁, .bytes c₁⟩, none, 0⟩]⟩, false) := by
    simp only [put, as, shelf, Codes.encodeQuery]
    have p1 : t₁.duration.isSome = true ∧ sizeOk none c₁ = true := ⟨by simp [h₁], by unfold sizeOk; simpa using hc⟩
    have p2 : ¬ (t₂.duration.isSome = true ∧ sizeOk (some c₁.length) c₂ = true) := by simp [sizeOk, hne]
    simp only [p1, p2, and_self, if_true, if_false]
    rfl
  simp only [] at e1 e2
  rw [hput] at e1 e2
  exact ⟨by rw [e1], fun h => by simpa using e2.1 h⟩

/-- **C287** (exactly which): the first boolean code of an index is accepted exactly if its number of bits, rounded up to whole bytes, is a positive multiple of eight bytes. -/
theorem C287_iff {X : Type} (np : Numpy) (js : Json X) (doc : List Char) (t : TimeSlice) (d : Dur) (ht : t.duration = some d) (bits : List Bool) :
    (act np js (acts np js {} [.create false none]) (.add 0 doc [(⟨t, .bool bits⟩, 0)])).2 = .ok [] ↔ 0 < bits.length ∧ (bits.length + 7) / 8 % 8 = 0 := by
  have hk : (acts np js {} [.create false (none : Option (List Char → TimeSlice → X))]).indexes[0]? = some ⟨false, none, none⟩ := by
    simp [acts, act, create, openDb, openSize]
  obtain ⟨-, e2⟩ := C286_add np js [.create false none] 0 doc [(⟨t, .bool bits⟩, 0)] (by simp [drawn]) _ hk
  rw [e2]
  obtain ⟨q, h1, _, h3⟩ := Zounds.Props.Codes.C14_decode_encode_bool bits
  simp only [put, shelf, h1]
  have hiff : (t.duration.isSome = true ∧ sizeOk none q = true) ↔ 0 < bits.length ∧ (bits.length + 7) / 8 % 8 = 0 := by
    simp only [ht, Option.isSome_some, true_and, sizeOk, decide_eq_true_eq, h3]
    omega
  by_cases h : t.duration.isSome = true ∧ sizeOk none q = true
  · simp only [h, and_self, if_true]
    simp only [true_iff]
    exact hiff.1 h
  · simp only [h, if_false]
    simp only [Bool.false_eq_true, false_iff]
    exact fun h' => h (hiff.2 h')

/-- **C287, refuted**: codes of 1 to 56 bits - eight, sixteen, thirty-two - cannot be indexed. -/
theorem C287_short_refuted {X : Type} (np : Numpy) (js : Json X) (doc : List Char) (t : TimeSlice) (d : Dur) (ht : t.duration = some d) (bits : List Bool)
    (h : bits.length ≤ 56) : (act np js (acts np js {} [.create false none]) (.add 0 doc [(⟨t, .bool bits⟩, 0)])).2 ≠ .ok [] := by
  rw [Ne, C287_iff np js doc t d ht bits]
  omega

/-- **C288, refuted**: while nothing is indexed every search is a ValueError, whatever is asked for. -/
theorem C288_empty_refuted {X : Type} (np : Numpy) (js : Json X) (as : List (Act X)) (hids : (drawn as).Nodup) (hempty : (shelf [] {} as).size = none)
    (k : Nat) (x : Index X) (hk : (acts np js {} as).indexes[k]? = some x) (q : Codes.Feature) (n : Nat) (mt sort : Bool) :
    (act np js (acts np js {} as) (.search k q n mt sort)).2 = .error .valueError := by
  have hrel := acts_rel np js as {} [] {} (start_rel np js) (by simpa using hids)
  rcases initDb_search hrel.behind x (hrel.attached x (List.mem_of_getElem? hk)) with ⟨_, _, hi⟩ | ⟨_, _, _, _, _, _, _, _, h, _⟩
  · simp only [act, hk, search, hi]
  · exact absurd hempty h

/-- **C289** (what does hold): an index object that has opened the database - it was created after something was indexed, or it has added or searched since - has the number
of indexed segments as its length. -/
theorem C289_len {X : Type} (np : Numpy) (js : Json X) (as : List (Act X)) (hids : (drawn as).Nodup) :
    ∀ (k : Nat) (x : Index X), (acts np js {} as).indexes[k]? = some x → x.db ≠ none → len (acts np js {} as).world x = (shelf [] {} as).rows.length := by
  intro k x _ hdb
  have hrel := acts_rel np js as {} [] {} (start_rel np js) (by simpa using hids)
  have := hrel.behind.inv.perm.length_eq
  unfold len
  cases hx : x.db with
  | none => exact absurd hx hdb
  | some j => simpa using this

/-- **C289, refuted**: an index object created before anything was indexed says that it is empty while another object over the same path indexes documents. -/
theorem C289_stale_refuted {X : Type} (np : Numpy) (js : Json X) (doc : List Char) (t : TimeSlice) (d : Dur) (ht : t.duration = some d) (c : List UInt8)
    (hc : 0 < c.length ∧ c.length % 8 = 0) :
    let as : List (Act X) := [.create false none, .create false none, .add 1 doc [(⟨t, .bytes c⟩, 0)]]
    (shelf [] {} as).rows.length = 1 ∧ ∃ x, (acts np js {} as).indexes[0]? = some x ∧ len (acts np js {} as).world x = 0 := by
  intro as
  have p1 : t.duration.isSome = true ∧ sizeOk none c = true := ⟨by simp [ht], by unfold sizeOk; simpa using hc⟩
  refine ⟨?_, ⟨false, none, none⟩, ?_, rfl⟩
  · simp only [as, shelf, List.nil_append, List.cons_append, List.getElem?_cons_succ, List.getElem?_cons_zero, put, Codes.encodeQuery, p1, and_self, if_true]
    rfl
  · simp only [as, acts, act, create, openDb, openSize, List.nil_append, List.cons_append, List.getElem?_cons_succ, List.getElem?_cons_zero]
    split <;> rfl

/-- **C290** (what does hold): with an index object that has extra_data functions, over segments that were indexed by such objects, every result has extra data: C284.
Without extra_data functions stored extra data is left out of the results. -/
theorem C290_without {X : Type} (js : Json X) (hjs : RoundTrips js) (x : Index X) (hx : x.extra = none) (r : Row X) (hd : r.seg.ts.duration ≠ none) (ht : Timed r.seg.ts) :
    ∃ y, parse js x (recOf js r).data = .ok y ∧ y.docId = r.doc ∧ y.extra = none := by
  obtain ⟨y, h1, h2, _, _, h5⟩ := parse_row js hjs x r hd ht (fun h => absurd hx h)
  exact ⟨y, h1, h2, by rw [h5, hx]; rfl⟩

/-- **C290, refuted**: over segments that were indexed without extra data, an index object with extra_data functions fails with KeyError at every search for at least
one result. -/
theorem C290_keyerror_refuted {X : Type} (np : Numpy) (hl : Legal np) (js : Json X) (hjs : RoundTrips js) (as : List (Act X)) (hids : (drawn as).Nodup)
    (k : Nat) (x : Index X) (hk : (acts np js {} as).indexes[k]? = some x) (hw : x.writeonly = false) (hx : x.extra ≠ none)
    (q : Codes.Feature) (c : List UInt8) (hq : Codes.encodeQuery q = .ok c) (hsize : (shelf [] {} as).size = some c.length)
    (htimes : ∀ r ∈ (shelf [] {} as).rows, Timed r.seg.ts) (hno : ∀ r ∈ (shelf [] {} as).rows, r.extra = none)
    (n : Nat) (h0 : 0 < n) (hn : n < (shelf [] {} as).rows.length) (mt sort : Bool) :
    (act np js (acts np js {} as) (.search k q n mt sort)).2 = .error .keyError := by
  obtain ⟨chosen, rest, f1, f2, f3, f4, -, -⟩ := raw_search np hl js as hids k x hk hw q c hq hsize n hn mt sort
  rw [f3]
  cases chosen with
  | nil => simp at f2; omega
  | cons r chosen =>
    have hr : r ∈ (shelf [] {} as).rows := f1.mem_iff.1 (by simp)
    obtain ⟨d, hd'⟩ : ∃ d, r.seg.ts.duration = some d := Option.ne_none_iff_exists'.mp (f4 r List.mem_cons_self)
    obtain ⟨h1, h2, h3⟩ := htimes r hr
    obtain ⟨h4, h5⟩ := h3 d hd'
    obtain ⟨p, ts', e1, e2, e3, e4⟩ := C17_timeslice_roundtrip r.seg.ts d hd' h1 h2 h4 h5
    rw [encodeTimeSlice_some _ (by rw [hd']; simp)] at e1
    cases e1
    have hl : js.loads (recOf js r).data = .ok ⟨r.doc, timesOf r.seg.ts, r.extra⟩ := hjs _
    obtain ⟨f, hf⟩ : ∃ f, x.extra = some f := Option.ne_none_iff_exists'.mp hx
    simp only [List.map_cons, parseAll, parse, hl, e2, hf, hno r hr]

/-! ## Random searches -/

theorem put_mem (k : Nat) (v : List UInt8) (st : Store) : ∀ p ∈ Store.put k v st, p.1 = k ∨ p ∈ st := by
  induction st with
  | nil => intro p hp; simp [Store.put] at hp; left; rw [hp]
  | cons a st ih =>
    intro p hp
    obtain ⟨k', v'⟩ := a
    unfold Store.put at hp
    split at hp
    · rcases List.mem_cons.1 hp with rfl | hp
      · left; rfl
      · right; exact hp
    · split at hp
      · rcases List.mem_cons.1 hp with rfl | hp
        · left; rfl
        · right; exact List.mem_cons_of_mem _ hp
      · rcases List.mem_cons.1 hp with rfl | hp
        · right; exact List.mem_cons_self
        · rcases ih p hp with h | h
          · left; exact h
          · right; exact List.mem_cons_of_mem _ h

/-- The keys of the store are in order. -/
def InOrder (st : Store) : Prop := st.Pairwise fun a b => a.1 < b.1

theorem put_order (k : Nat) (v : List UInt8) (st : Store) (h : InOrder st) : InOrder (Store.put k v st) := by
  have := (C11_store_put_overwrites k v st (by rw [List.pairwise_map]; exact h)).1
  rw [List.pairwise_map] at this
  exact this

theorem step_order (np : Numpy) (w : World) (op : Op) (h : InOrder w.store) : InOrder (step np w op).1.store := by
  cases op with
  | «open» arg wo =>
    simp only [step, openDb]
    cases openSize w.codesize arg with
    | error e => exact h
    | ok r =>
      obtain ⟨cs, m⟩ := r
      simp only []
      cases catchUp w.store { codeSize := cs, writeonly := wo } <;> exact h
  | append j c d id b =>
    simp only [step]
    cases w.insts[j]? with
    | none => exact h
    | some i =>
      simp only [HammingDb.append]
      cases validate i c with
      | error e => exact h
      | ok u =>
        simp only []
        cases addCode i id c.encode with
        | error e => exact h
        | ok i' =>
          cases b with
          | true => exact put_order _ _ _ h
          | false => exact h
  | search j c n mt sort =>
    simp only [step]
    cases w.insts[j]? <;> exact h

theorem run_order (np : Numpy) (ops : List Op) : ∀ w, InOrder w.store → InOrder (run np w ops).store := by
  induction ops with
  | nil => intro w h; exact h
  | cons op ops ih => intro w h; exact ih _ (step_order np w op h)

theorem find_first (st : Store) (d : Nat) (p : Nat × List UInt8) (hp : p ∈ st) (hd : d ≤ p.1) : ∃ p', st.find? (fun p => decide (d ≤ p.1)) = some p' := by
  cases h : st.find? (fun p => decide (d ≤ p.1)) with
  | some p' => exact ⟨p', rfl⟩
  | none =>
    rw [List.find?_eq_none] at h
    exact absurd hd (by simpa using h p hp)

/-- **C291** (what does hold): the code of a random search is that of an indexed segment, and every indexed segment can be drawn: by its own id. -/
theorem C291_drawn {X : Type} (np : Numpy) (js : Json X) (as : List (Act X)) (hids : (drawn as).Nodup) (cs : Nat) (hcs : (shelf [] {} as).size = some cs) :
    (∀ draws c, randomCode (acts np js {} as).world.store cs draws = some c → ∃ r ∈ (shelf [] {} as).rows, c = codeOf r.seg) ∧
    (∀ r ∈ (shelf [] {} as).rows, ∀ draws, randomCode (acts np js {} as).world.store cs (r.id :: draws) = some (codeOf r.seg)) ∧
    (∀ draws, randomCode (acts np js {} as).world.store cs draws ≠ none ↔ ∃ d ∈ draws, ∃ r ∈ (shelf [] {} as).rows, d ≤ r.id) := by
  have hrel := acts_rel np js as {} [] {} (start_rel np js) (by simpa using hids)
  generalize shelf [] {} as = sh at *
  generalize acts np js {} as = s at *
  have hperm := hrel.behind.inv.perm
  obtain ⟨ops, h1, h2, h3, h4, h5, h6⟩ := hrel.behind.hist
  have hord : InOrder s.world.store := by rw [← h4]; exact run_order np ops {} (by simp [InOrder])
  have hlen : ∀ r ∈ sh.rows, (codeOf r.seg).length = cs := by
    intro r hr
    have := history_exact np ops h1 h2 h3 (recOf js r) (by rw [h5]; exact List.mem_map_of_mem hr)
    rw [h4, hrel.behind.size, hcs] at this
    exact (Option.some.inj this).symm
  have hrow : ∀ p ∈ s.world.store, ∃ r ∈ sh.rows, p.1 = r.id ∧ p.2.take cs = codeOf r.seg := by
    intro p hp
    obtain ⟨a, ha, rfl⟩ := List.mem_map.1 (hperm.mem_iff.1 hp)
    obtain ⟨r, hr, rfl⟩ := List.mem_map.1 ha
    refine ⟨r, hr, rfl, ?_⟩
    simp only [recOf]
    rw [← hlen r hr, List.take_left]
  have hin : ∀ r ∈ sh.rows, ∃ v, (r.id, v) ∈ s.world.store := by
    intro r hr
    exact ⟨_, hperm.mem_iff.2 (List.mem_map.2 ⟨recOf js r, List.mem_map_of_mem hr, rfl⟩)⟩
  refine ⟨?_, ?_, ?_⟩
  · intro draws
    induction draws with
    | nil => intro c h; simp [randomCode] at h
    | cons d ds ih =>
      intro c h
      unfold randomCode at h
      cases hf : s.world.store.find? (fun p => decide (d ≤ p.1)) with
      | none => simp only [hf] at h; exact ih c h
      | some p =>
        simp only [hf, Option.some.injEq] at h
        obtain ⟨r, hr, -, e⟩ := hrow p (List.mem_of_find?_eq_some hf)
        exact ⟨r, hr, by rw [← h, e]⟩
  · intro r hr draws
    obtain ⟨v, hv⟩ := hin r hr
    obtain ⟨p, hp⟩ := find_first _ r.id _ hv (Nat.le_refl _)
    -- the first key at or after the id is the id itself
    have hpe : p = (r.id, v) := by
      have hpm := List.mem_of_find?_eq_some hp
      have hge : r.id ≤ p.1 := by simpa using List.find?_some hp
      obtain ⟨l₁, l₂, hsplit, hbefore⟩ := List.find?_eq_some_iff_append.1 hp |>.2
      have hv' := hv
      rw [hsplit] at hv'
      rcases List.mem_append.1 hv' with hv' | hv'
      · have := hbefore _ hv'
        simp at this
      · rcases List.mem_cons.1 hv' with hv' | hv'
        · exact hv'.symm
        · unfold InOrder at hord
          rw [hsplit, List.pairwise_append] at hord
          have := (List.pairwise_cons.1 hord.2.1).1 _ hv'
          simp only at this
          omega
    obtain ⟨r', hr', e1, e2⟩ := hrow (r.id, v) hv
    have : (r.id, v).2.take cs = codeOf r.seg := by
      obtain ⟨a, ha, e⟩ := List.mem_map.1 (hperm.mem_iff.1 hv)
      obtain ⟨r'', hr'', rfl⟩ := List.mem_map.1 ha
      have hid : r''.id = r.id := congrArg Prod.fst e
      have hnd : (sh.rows.map Row.id).Nodup := by
        have := h1
        unfold FreshIds at this
        rwa [h6] at this
      have : r'' = r := by
        exact List.inj_on_of_nodup_map hnd hr'' hr hid
      subst this
      have e2 : v = codeOf r''.seg ++ (recOf js r'').data := (congrArg Prod.snd e).symm
      rw [e2]
      simp only []
      rw [← hlen r'' hr, List.take_left]
    simp only [randomCode, hp, hpe, this]
  · intro draws
    induction draws with
    | nil => simp [randomCode]
    | cons d ds ih =>
      unfold randomCode
      cases hf : s.world.store.find? (fun p => decide (d ≤ p.1)) with
      | some p =>
        simp only [ne_eq, reduceCtorEq, not_false_eq_true, true_iff]
        obtain ⟨r, hr, e, -⟩ := hrow p (List.mem_of_find?_eq_some hf)
        have : d ≤ p.1 := by simpa using List.find?_some hf
        exact ⟨d, List.mem_cons_self, r, hr, by omega⟩
      | none =>
        simp only []
        rw [ih]
        constructor
        · rintro ⟨d', hd', h'⟩; exact ⟨d', List.mem_cons_of_mem _ hd', h'⟩
        · rintro ⟨d', hd', r, hr, hle⟩
          rcases List.mem_cons.1 hd' with rfl | hd'
          · obtain ⟨v, hv⟩ := hin r hr
            rw [List.find?_eq_none] at hf
            exact absurd hle (by simpa using hf _ hv)
          · exact ⟨d', hd', r, hr, hle⟩

/-- **C291, refuted**: a random search of an empty database never returns: no number of draws suffices. -/
theorem C291_empty_refuted (cs : Nat) : ∀ draws, randomCode [] cs draws = none := by
  intro draws
  induction draws with
  | nil => rfl
  | cons d ds ih => simp only [randomCode, List.find?_nil, ih]

/-! ## The hypotheses can be met -/

/-- Two segments of eight bytes, from zero and from one second on, lasting a second each. -/
def seg (t : Int) (b : UInt8) : Segment := ⟨⟨⟨t, .s⟩, some ⟨1, .s⟩⟩, .bytes (List.replicate 8 b)⟩

def history : List (Act Nat) := [.create false none, .add 0 ['a'] [(seg 0 1, 7), (seg 1 255, 3)], .create false none, .add 1 ['b'] [(seg 0 3, 5)]]

theorem history_ok : (drawn history).Nodup ∧ (shelf [] {} history).size = some 8 ∧ (shelf [] {} history).rows.map Row.doc = [['a'], ['a'], ['b']] := by decide +kernel

theorem history_timed : ∀ r ∈ (shelf [] {} history).rows, Timed r.seg.ts := by
  intro r hr
  have h : r.seg.ts = (seg 0 1).ts ∨ r.seg.ts = (seg 1 1).ts := by
    have : (shelf [] {} history).rows.map (fun r => r.seg.ts) = [(seg 0 1).ts, (seg 1 1).ts, (seg 0 1).ts] := by rfl
    have hm := List.mem_map_of_mem (f := fun r : Row Nat => r.seg.ts) hr
    rw [this] at hm
    simp only [List.mem_cons, List.not_mem_nil, or_false] at hm
    rcases hm with h | h | h
    · exact Or.inl h
    · exact Or.inr h
    · exact Or.inl h
  rcases h with h | h <;> rw [h] <;> refine ⟨?_, by decide, ?_⟩
  · unfold Int64Count; decide
  · intro d hd; cases hd; exact ⟨by unfold Int64Count; decide, by decide⟩
  · unfold Int64Count; decide
  · intro d hd; cases hd; exact ⟨by unfold Int64Count; decide, by decide⟩

theorem utf8_as (n : Nat) : (List.replicate n 'a').flatMap String.utf8EncodeChar = List.replicate n 97 := by
  induction n with
  | zero => rfl
  | succ n ih => rw [List.replicate_succ, List.flatMap_cons, ih, List.replicate_succ]; rfl

/-- A text format that can be read back exists. -/
theorem json_exists : ∃ js : Json Nat, RoundTrips js := by
  have hu : Countable TUnit := Function.Injective.countable (f := TUnit.ctorIdx) (by intro a b h; cases a <;> cases b <;> first | rfl | cases h)
  have hc : Countable Char := Function.Injective.countable (f := Char.toNat) (fun a b h => Char.toNat_inj.1 h)
  have he : Countable (Entry Nat) := Function.Injective.countable (f := fun e : Entry Nat => (e.docId, e.times, e.extra)) (by
    rintro ⟨a, b, c⟩ ⟨a', b', c'⟩ h
    simp only [Prod.mk.injEq] at h
    obtain ⟨rfl, rfl, rfl⟩ := h
    rfl)
  obtain ⟨f, hf⟩ := exists_injective_nat (Entry Nat)
  classical
  refine ⟨⟨fun e => List.replicate (f e) 'a', fun b => if h : ∃ e, f e = b.length then .ok h.choose else .error .valueError⟩, ?_⟩
  intro e
  simp only [utf8_as, List.length_replicate]
  have h : ∃ e', f e' = f e := ⟨e, rfl⟩
  rw [dif_pos h, hf h.choose_spec]

theorem history_index (np : Numpy) (js : Json Nat) : ∃ x, (acts np js {} history).indexes[1]? = some x ∧ x.writeonly = false ∧ x.extra = none ∧ x.db ≠ none :=
  ⟨_, by rfl, rfl, rfl, by simp⟩

example : True := by
  obtain ⟨js, hjs⟩ := json_exists
  obtain ⟨x, hx, hw, he, hd⟩ := history_index np0 js
  have hno : x.extra ≠ none → ∀ r ∈ (shelf [] {} history).rows, r.extra ≠ none := fun h => absurd he h
  have := C284_search np0 np0_legal js hjs history history_ok.1 1 x hx hw (.bytes (List.replicate 8 1)) (List.replicate 8 1) rfl history_ok.2.1 history_timed hno 2 (by decide +kernel) true true
  have := C285_self np0 np0_legal js hjs history history_ok.1 1 x hx hw _ (List.mem_cons_self (l := _)) history_timed hno 2 (by decide) (by decide +kernel) true
  have := C286_add np0 js history 1 ['c'] [(seg 2 9, 11)] (by decide +kernel) x hx
  have := C289_len np0 js history history_ok.1 1 x hx hd
  have := C290_without js hjs x he ⟨['a'], seg 0 1, none, 7⟩ (by simp [seg]) (history_timed _ List.mem_cons_self)
  have := C291_drawn np0 js history history_ok.1 8 history_ok.2.1
  have := C287_iff np0 js ['a'] ⟨⟨0, .s⟩, some ⟨1, .s⟩⟩ ⟨1, .s⟩ rfl (List.replicate 64 true)
  trivial

end Zounds.Search
