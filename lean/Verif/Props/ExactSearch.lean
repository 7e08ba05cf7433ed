import Verif.Props.Search
/-!
# Exactly when an index with extra data answers a search (C290)
-/

namespace Zounds.Search
open Zounds Zounds.Time Zounds.HammingDb Zounds.Props.HammingDb Zounds.Persist Zounds.Props.Persist

theorem parseAll_keyerror {X : Type} (js : Json X) (hjs : RoundTrips js) (x : Index X) (hx : x.extra ≠ none) : ∀ rows : List (Row X),
    (∀ r ∈ rows, r.seg.ts.duration ≠ none ∧ Timed r.seg.ts) → (∃ r ∈ rows, r.extra = none) →
    parseAll js x (rows.map fun r => (recOf js r).data) = .error .keyError := by
  intro rows
  induction rows with
  | nil => rintro _ ⟨r, hr, _⟩; cases hr
  | cons r rows ih =>
    intro h hno
    obtain ⟨hd, ht⟩ := h r List.mem_cons_self
    by_cases hr : r.extra = none
    · obtain ⟨d, hd'⟩ : ∃ d, r.seg.ts.duration = some d := Option.ne_none_iff_exists'.mp hd
      obtain ⟨h1, h2, h3⟩ := ht
      obtain ⟨h4, h5⟩ := h3 d hd'
      obtain ⟨p, ts', e1, e2, e3, e4⟩ := C17_timeslice_roundtrip r.seg.ts d hd' h1 h2 h4 h5
      rw [encodeTimeSlice_some _ hd] at e1
      cases e1
      have hl : js.loads (recOf js r).data = .ok ⟨r.doc, timesOf r.seg.ts, r.extra⟩ := hjs _
      obtain ⟨f, hf⟩ : ∃ f, x.extra = some f := Option.ne_none_iff_exists'.mp hx
      simp only [List.map_cons, parseAll, parse, hl, e2, hf, hr]
    · obtain ⟨y, e1, _⟩ := parse_row js hjs x r hd ht (fun _ => hr)
      have hrest : ∃ r' ∈ rows, r'.extra = none := by
        obtain ⟨r', hm, hn⟩ := hno
        rcases List.mem_cons.1 hm with rfl | hm
        · exact absurd hn hr
        · exact ⟨r', hm, hn⟩
      simp only [List.map_cons, parseAll, e1, ih (fun r' hr' => h r' (List.mem_cons_of_mem _ hr')) hrest]

/-- **C290**, exactly when an index with extra data answers: after any history of actions by any number of index objects over one path, a search picks nearest segments (as in C284) and is
answered with them if and only if the object has no extra_data functions or all of them were indexed with extra data; otherwise it is a KeyError. -/
theorem C290_exact {X : Type} (np : Numpy) (hl : Legal np) (js : Json X) (hjs : RoundTrips js) (as : List (Act X)) (hids : (drawn as).Nodup)
    (k : Nat) (x : Index X) (hk : (acts np js {} as).indexes[k]? = some x) (hw : x.writeonly = false)
    (q : Codes.Feature) (c : List UInt8) (hq : Codes.encodeQuery q = .ok c) (hsize : (shelf [] {} as).size = some c.length)
    (htimes : ∀ r ∈ (shelf [] {} as).rows, Timed r.seg.ts) (n : Nat) (hn : n < (shelf [] {} as).rows.length) (mt sort : Bool) :
    ∃ chosen rest, (chosen ++ rest).Perm (shelf [] {} as).rows ∧ chosen.length = n ∧
      (∀ a ∈ chosen, ∀ b ∈ rest, bitDistance c (codeOf a.seg) ≤ bitDistance c (codeOf b.seg)) ∧
      (sort = true → chosen.Pairwise fun a b => bitDistance c (codeOf a.seg) ≤ bitDistance c (codeOf b.seg)) ∧
      ((x.extra = none ∨ ∀ r ∈ chosen, r.extra ≠ none) →
        ∃ results, (act np js (acts np js {} as) (.search k q n mt sort)).2 = .ok results ∧ List.Forall₂ (Shows x) chosen results) ∧
      (¬ (x.extra = none ∨ ∀ r ∈ chosen, r.extra ≠ none) → (act np js (acts np js {} as) (.search k q n mt sort)).2 = .error .keyError) := by
  obtain ⟨chosen, rest, f1, f2, f3, f4, f5, f6⟩ := raw_search np hl js as hids k x hk hw q c hq hsize n hn mt sort
  have hmem : ∀ r ∈ chosen, r ∈ (shelf [] {} as).rows := fun r hr => f1.mem_iff.1 (by simp [hr])
  refine ⟨chosen, rest, f1, f2, f5, f6, ?_, ?_⟩
  · intro h
    obtain ⟨ys, g1, g2⟩ := parseAll_rows js hjs x chosen fun r hr => ⟨f4 r hr, htimes r (hmem r hr), fun hx => (h.resolve_left hx) r hr⟩
    exact ⟨ys, by rw [f3, g1], g2⟩
  · intro h
    rw [not_or] at h
    obtain ⟨hx, ha⟩ := h
    rw [f3]
    refine parseAll_keyerror js hjs x hx chosen (fun r hr => ⟨f4 r hr, htimes r (hmem r hr)⟩) ?_
    by_contra hc
    exact ha fun r hr hn => hc ⟨r, hr, hn⟩

example : True := by
  obtain ⟨js, hjs⟩ := json_exists
  obtain ⟨x, hx, hw, he, hd⟩ := history_index np0 js
  have := C290_exact np0 np0_legal js hjs history history_ok.1 1 x hx hw (.bytes (List.replicate 8 1)) (List.replicate 8 1) rfl history_ok.2.1 history_timed 2 (by decide +kernel) true true
  trivial

end Zounds.Search
