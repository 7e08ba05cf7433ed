import Verif.Props.Archives

/-!
# Which attributes may be given to an archive, and whose metadata a sound has (C202, C203)
-/

namespace Zounds.Archives
open Zounds Zounds.Ops

theorem yielded_addresses (join : String → String → String) (archiveId : String) (flt : Filter) (attrs : Entry) (fs : Dict Entry) :
    ∀ (l : List (String × Entry)) (ys : List (String × Entry)),
      List.Forall₂ (fun (ke : String × Entry) (y : String × Entry) => y.1 = soundUrl join archiveId ke.1 ∧
        ∃ m d, Describes fs ke.1 m ∧ get fs m = some d ∧ ∀ x, get y.2 x = said attrs archiveId d x) l ys →
      ys.map (·.1) = l.map fun ke => soundUrl join archiveId ke.1 := by
  intro l
  induction l with
  | nil => intro ys h; cases h; rfl
  | cons a l ih =>
    intro ys h
    cases h with
    | cons h1 h2 =>
      rw [List.map_cons, List.map_cons, ih _ h2, h1.1]

/-- An original and a file derived from it, which come in this order: the derived one first. -/
def two (orig : String) (e : Entry) : Dict Entry :=
  [("/a.ogg", [("format", .text "Ogg Vorbis"), ("source", .text "derivative"), ("original", .text orig)]), ("/" ++ orig, e)]

/-- What the loop yields for a derived file and an original of which the archive says `e`. -/
theorem two_yields (join : String → String → String) (attrs : Entry) (hn : (attrs.map (·.1)).Nodup) (hp : ∀ x ∈ ["source", "original", "uri", "self", "request"], x ∉ attrs.map (·.1))
    (fmt : Val) (orig : String) (ho : "/" ++ orig ≠ "/a.ogg") (v : Val) (hv : get attrs "format" = some v) :
    (internetArchive join "id" .default attrs (.files (two orig [("format", fmt), ("source", .text "original")]))).1.map (·.1) =
      if v = .text "Ogg Vorbis" then [soundUrl join "id" "/a.ogg", soundUrl join "id" ("/" ++ orig)] else [soundUrl join "id" "/a.ogg"] := by
  obtain ⟨e, he⟩ : ∃ e : Entry, e = [("format", fmt), ("source", .text "original")] := ⟨_, rfl⟩
  have hattr : ∀ x, x ∈ ["source", "original", "uri", "self", "request"] → get attrs x = none := fun x hx => (get_none attrs x).2 (hp x hx)
  have hname : ∀ d : Entry, (∀ x, x = "uri" ∨ x = "self" ∨ x = "request" → get d x = none) → ∀ x, x = "uri" ∨ x = "self" ∨ x = "request" ∨ x ∈ ([] : List String) →
      get (enriched attrs "id" d) x = none := by
    intro d hd x hx
    rw [get_enriched attrs hn]
    unfold said
    have hx' : x = "uri" ∨ x = "self" ∨ x = "request" := by simpa using hx
    rw [if_neg (by rcases hx' with rfl | rfl | rfl <;> decide), hd x hx', hattr x (by rcases hx' with rfl | rfl | rfl <;> simp)]
    rfl
  have hsaid : ∀ d : Entry, get (enriched attrs "id" d) "format" = some v ∧ get (enriched attrs "id" d) "source" = get d "source" := by
    intro d
    rw [get_enriched attrs hn, get_enriched attrs hn]
    unfold said
    rw [if_neg (by decide), if_neg (by decide), hv, hattr "source" (by simp)]
    exact ⟨rfl, rfl⟩
  have he0 : ∀ x, x = "uri" ∨ x = "self" ∨ x = "request" → get e x = none := by
    rintro x (rfl | rfl | rfl) <;> rw [he] <;> rfl
  have hes : get e "source" = some (.text "original") := by rw [he]; rfl
  rw [← he]
  have hne : "/a.ogg" ≠ "/" ++ orig := fun h => ho h.symm
  have hget : get (two orig e) ("/" ++ orig) = some e := by
    unfold two
    rw [get_cons, if_neg hne, get_cons, if_pos rfl]
  -- the first file
  have s1 : archiveStep join .default attrs "id" (two orig e) "/a.ogg" = .ok (put (two orig e) ("/" ++ orig) (enriched attrs "id" e), some (soundUrl join "id" "/a.ogg", enriched attrs "id" e)) := by
    have g1 : get (two orig e) "/a.ogg" = some [("format", .text "Ogg Vorbis"), ("source", .text "derivative"), ("original", .text orig)] := by
      unfold two
      rw [get_cons, if_pos rfl]
    have f1 : Filter.apply .default [("format", .text "Ogg Vorbis"), ("source", .text "derivative"), ("original", .text orig)] = .ok true := rfl
    have m1 : metadataOf (two orig e) "/a.ogg" [("format", .text "Ogg Vorbis"), ("source", .text "derivative"), ("original", .text orig)] = .ok ("/" ++ orig) := by
      unfold metadataOf
      have a1 : get ([("format", .text "Ogg Vorbis"), ("source", .text "derivative"), ("original", .text orig)] : Entry) "source" = some (.text "derivative") := rfl
      have a2 : get ([("format", .text "Ogg Vorbis"), ("source", .text "derivative"), ("original", .text orig)] : Entry) "original" = some (.text orig) := rfl
      rw [a1, a2]
      simp only []
      rw [if_neg (by decide), if_pos trivial, hget]
      rfl
    unfold archiveStep
    simp only [g1, Option.getD_some, f1, m1, hget]
    rw [audioMetaData_ok _ _ _ (hname e he0)]
  -- the second
  have g2 : get (put (two orig e) ("/" ++ orig) (enriched attrs "id" e)) ("/" ++ orig) = some (enriched attrs "id" e) := by
    rw [get_put, if_pos rfl]
  have f2 : Filter.apply .default (enriched attrs "id" e) = .ok (decide (v = .text "Ogg Vorbis")) := by
    simp only [Filter.apply, (hsaid e).1]
  have m2 : metadataOf (put (two orig e) ("/" ++ orig) (enriched attrs "id" e)) ("/" ++ orig) (enriched attrs "id" e) = .ok ("/" ++ orig) := by
    unfold metadataOf
    rw [(hsaid e).2, hes]
    simp only []
    exact if_pos trivial
  have he1 : ∀ x, x = "uri" ∨ x = "self" ∨ x = "request" → get (enriched attrs "id" e) x = none := fun x hx => hname e he0 x (by
    rcases hx with h | h | h
    · exact Or.inl h
    · exact Or.inr (Or.inl h)
    · exact Or.inr (Or.inr (Or.inl h)))
  have hkeys : (two orig e).map (·.1) = ["/a.ogg", "/" ++ orig] := rfl
  unfold internetArchive
  rw [if_neg (by decide)]
  simp only [hkeys, archiveLoop, s1]
  by_cases hog : v = .text "Ogg Vorbis"
  · have s2 : ∃ fs', archiveStep join .default attrs "id" (put (two orig e) ("/" ++ orig) (enriched attrs "id" e)) ("/" ++ orig) =
        .ok (fs', some (soundUrl join "id" ("/" ++ orig), enriched attrs "id" (enriched attrs "id" e))) := by
      unfold archiveStep
      simp only [g2, Option.getD_some, f2, hog, decide_true, m2]
      rw [audioMetaData_ok _ _ _ (hname _ he1)]
      exact ⟨_, rfl⟩
    obtain ⟨fs', s2⟩ := s2
    simp only [s2]
    rw [if_pos hog]
    rfl
  · have s2 : archiveStep join .default attrs "id" (put (two orig e) ("/" ++ orig) (enriched attrs "id" e)) ("/" ++ orig) =
        .ok (put (two orig e) ("/" ++ orig) (enriched attrs "id" e), none) := by
      unfold archiveStep
      simp only [g2, Option.getD_some, f2, hog, decide_false]
    simp only [s2]
    rw [if_neg hog]
    rfl

theorem two_orderly (orig : String) (ho : "/" ++ orig ≠ "/a.ogg") (fmt : Val) : Orderly .default [] (two orig [("format", fmt), ("source", .text "original")]) where
  attrsOnce := by simp
  filesOnce := by
    simp only [two, List.map_cons, List.map_nil, List.nodup_cons, List.mem_singleton, List.not_mem_nil, not_false_eq_true, List.nodup_nil, and_true]
    exact fun h => ho h.symm
  blind := by
    intro e e' h
    have := h "format" (by simp) (by decide)
    simp [Filter.apply, this]
  plain := by simp
  decided := by
    intro k e h
    unfold two at h
    rw [get_cons, get_cons] at h
    split at h
    · cases h; exact ⟨_, rfl⟩
    · split at h
      · cases h; exact ⟨_, rfl⟩
      · cases h
  described := by
    intro k e h _
    have hh := h
    unfold two at h
    rw [get_cons, get_cons] at h
    split at h
    · rename_i hk
      subst hk
      cases h
      refine ⟨"/" ++ orig, _, hh, Or.inr ⟨rfl, orig, rfl, rfl, ?_⟩⟩
      unfold two
      rw [get_cons, if_neg (fun h => ho h.symm), get_cons, if_pos rfl]
      rfl
    · split at h
      · rename_i hk
        cases h
        exact ⟨k, _, hh, Or.inl ⟨rfl, rfl⟩⟩
      · cases h
  named := by
    intro k e h x hx
    simp only [List.mem_cons, List.not_mem_nil, or_false] at hx
    unfold two at h
    rw [get_cons, get_cons] at h
    split at h
    · cases h
      rcases hx with rfl | rfl | rfl <;> rfl
    · split at h
      · cases h
        rcases hx with rfl | rfl | rfl <;> rfl
      · cases h

/-- **C202**, exactly which attributes leave the choice of files alone: with the default filter, attributes (whose names have no meaning to the library) leave the addresses of what is yielded as
they are, for every archive in good order, if and only if `format` is not among them. -/
theorem C202_exact (attrs : Entry) (hn : (attrs.map (·.1)).Nodup) (hp : ∀ x ∈ ["source", "original", "uri", "self", "request"], x ∉ attrs.map (·.1)) :
    (∀ (join : String → String → String) (archiveId : String), archiveId ≠ "" → ∀ fs : Dict Entry, Orderly .default [] fs →
      (internetArchive join archiveId .default attrs (.files fs)).1.map (·.1) = (internetArchive join archiveId .default [] (.files fs)).1.map (·.1)) ↔
    "format" ∉ attrs.map (·.1) := by
  constructor
  · intro h hf
    rw [← get_isSome] at hf
    obtain ⟨v, hv⟩ := Option.isSome_iff_exists.1 hf
    have hjoin : soundUrl (fun _ x => x) "id" "/a.ogg" = "/download/id/a.ogg" := by decide +kernel
    by_cases hog : v = .text "Ogg Vorbis"
    · have ho : "/" ++ "a.flac" ≠ "/a.ogg" := by decide +kernel
      have h1 := h (fun _ x => x) "id" (by decide) _ (two_orderly "a.flac" ho (.text "Flac"))
      rw [two_yields (fun _ x => x) attrs hn hp (.text "Flac") "a.flac" ho v hv, if_pos hog] at h1
      have h2 : (internetArchive (fun _ x => x) "id" .default [] (.files (two "a.flac" [("format", .text "Flac"), ("source", .text "original")]))).1.map (·.1) = ["/download/id/a.ogg"] := by
        decide +kernel
      rw [h2] at h1
      have := congrArg List.length h1
      simp at this
    · have ho : "/" ++ "b.ogg" ≠ "/a.ogg" := by decide +kernel
      have h1 := h (fun _ x => x) "id" (by decide) _ (two_orderly "b.ogg" ho (.text "Ogg Vorbis"))
      rw [two_yields (fun _ x => x) attrs hn hp (.text "Ogg Vorbis") "b.ogg" ho v hv, if_neg hog] at h1
      have h2 : (internetArchive (fun _ x => x) "id" .default [] (.files (two "b.ogg" [("format", .text "Ogg Vorbis"), ("source", .text "original")]))).1.map (·.1) =
          ["/download/id/a.ogg", "/download/id/b.ogg"] := by
        decide +kernel
      rw [h2] at h1
      have := congrArg List.length h1
      simp at this
  · intro hf join archiveId hid fs o
    have o' : Orderly .default attrs fs :=
      { attrsOnce := hn
        filesOnce := o.filesOnce
        blind := by
          intro e e' h
          have := h "format" hf (by decide)
          simp [Filter.apply, this]
        plain := hp
        decided := o.decided
        described := o.described
        named := o.named }
    obtain ⟨ys, h1, h2⟩ := C201_archive join archiveId hid .default attrs fs o'
    obtain ⟨zs, g1, g2⟩ := C201_archive join archiveId hid .default [] fs o
    rw [h1, g1]
    show ys.map (·.1) = zs.map (·.1)
    rw [yielded_addresses join archiveId .default attrs fs _ _ h2, yielded_addresses join archiveId .default [] fs _ _ g2]

/-- **C203**, whose metadata a sound has: an original's own, a derived file's original's, with the given attributes and the page's address on top. So of a derived file something is said as the archive
says it of that file exactly if the archive says the same of its original. -/
theorem C203_exact (join : String → String → String) (archiveId : String) (hid : archiveId ≠ "") (flt : Filter) (attrs : Entry) (fs : Dict Entry) (o : Orderly flt attrs fs) :
    ∃ ys, internetArchive join archiveId flt attrs (.files fs) = (ys, none) ∧
      List.Forall₂ (fun (ke : String × Entry) (y : String × Entry) =>
        (get ke.2 "source" = some (.text "original") → ∀ x, get y.2 x = said attrs archiveId ke.2 x) ∧
        (get ke.2 "source" = some (.text "derivative") → ∃ q d, get ke.2 "original" = some (.text q) ∧ get fs ("/" ++ q) = some d ∧
          (∀ x, get y.2 x = said attrs archiveId d x) ∧
          ∀ x, x ≠ "web_url" → x ∉ attrs.map (·.1) → (get y.2 x = get ke.2 x ↔ get d x = get ke.2 x)))
        (fs.filter fun ke => accepts flt ke.2) ys := by
  obtain ⟨ys, h1, h2⟩ := C201_archive join archiveId hid flt attrs fs o
  refine ⟨ys, h1, ?_⟩
  have hmem : ∀ ke ∈ fs.filter fun ke => accepts flt ke.2, get fs ke.1 = some ke.2 := fun ke h => get_of_mem fs o.filesOnce ke (List.mem_filter.1 h).1
  clear h1
  generalize (fs.filter fun ke => accepts flt ke.2) = l at *
  induction h2 with
  | nil => exact .nil
  | @cons ke y l ys h _ ih =>
    refine .cons ?_ (ih fun ke' h' => hmem ke' (List.mem_cons_of_mem _ h'))
    obtain ⟨-, m, d, ⟨e, he, hd⟩, hm, hx⟩ := h
    rw [hmem ke List.mem_cons_self] at he
    cases he
    constructor
    · intro hs x
      rcases hd with ⟨-, rfl⟩ | ⟨hs', -⟩
      · rw [hmem ke List.mem_cons_self] at hm
        cases hm
        exact hx x
      · rw [hs] at hs'; exact absurd hs' (by decide)
    · intro hs
      rcases hd with ⟨hs', -⟩ | ⟨-, q, hq, rfl, -⟩
      · rw [hs] at hs'; exact absurd hs' (by decide)
      · refine ⟨q, d, hq, hm, hx, fun x hw hxa => ?_⟩
        have : get y.2 x = get d x := by
          rw [hx x]
          unfold said
          rw [if_neg hw, (get_none attrs x).2 hxa]
          rfl
        rw [this]

example := C202_exact [("tags", .text "talk")] (by simp) (by decide)
example := C203_exact (fun _ x => x) "id" (by decide) .default [("tags", .text "talk")] speech speech_orderly
example := C201_archive (fun _ x => x) "id" (by decide) .default [("tags", .text "talk")] speech speech_orderly

end Zounds.Archives
