import Verif.Model.Archives
import Verif.Props.Ops

/-!
# C201-C211: sounds from archives
-/

namespace Zounds.Archives
open Zounds Zounds.Ops

/-! ## InternetArchive -/

/-- Specification: file `m` describes file `k` of the archive: `k` is an original and describes itself, or `k` is derived from `m`. -/
def Describes (fs : Dict Entry) (k m : String) : Prop :=
  ∃ e, get fs k = some e ∧
    ((get e "source" = some (.text "original") ∧ m = k) ∨
      (get e "source" = some (.text "derivative") ∧ ∃ o, get e "original" = some (.text o) ∧ m = "/" ++ o ∧ (get fs m).isSome))

/-- The filter accepts the file. -/
def accepts (flt : Filter) (e : Entry) : Bool :=
  match flt.apply e with
  | .ok true => true
  | _ => false

/-- Specification: what is said of `x` in the metadata of a file described by `o`: the page's address, else the given attribute, else what the archive says. -/
def said (attrs : Entry) (archiveId : String) (o : Entry) (x : String) : Option Val :=
  if x = "web_url" then some (.text ("https://archive.org//details/" ++ archiveId)) else (get attrs x).or (get o x)

theorem get_enriched (attrs : Entry) (ha : (attrs.map (·.1)).Nodup) (archiveId : String) (e : Entry) (x : String) :
    get (enriched attrs archiveId e) x = said attrs archiveId e x := by
  unfold enriched said
  rw [get_put, get_update attrs ha]

theorem audioMetaData_ok {U V : Type} (u : U) (given : List String) (d : Dict V)
    (h : ∀ x, x = "uri" ∨ x = "self" ∨ x = "request" ∨ x ∈ given → get d x = none) : audioMetaData u given d = .ok (u, d) := by
  have hk : ∀ x, x = "uri" ∨ x = "self" ∨ x = "request" ∨ x ∈ given → x ∉ d.map (·.1) := fun x hx => (get_none d x).1 (h x hx)
  unfold audioMetaData
  rw [if_neg, if_neg]
  · rw [List.any_eq_true]
    rintro ⟨kv, hkv, hc⟩
    have : kv.1 = "request" := by simpa using hc
    exact hk kv.1 (Or.inr (Or.inr (Or.inl this))) (List.mem_map_of_mem hkv)
  · rw [List.any_eq_true]
    rintro ⟨kv, hkv, hc⟩
    have : kv.1 = "uri" ∨ kv.1 = "self" ∨ kv.1 ∈ given := by simpa using hc
    refine hk kv.1 ?_ (List.mem_map_of_mem hkv)
    rcases this with h | h | h
    · exact Or.inl h
    · exact Or.inr (Or.inl h)
    · exact Or.inr (Or.inr (Or.inr h))

/-- The entries as they have become differ from the archive's only in the attributes that were given. -/
def Agrees (attrs : Entry) (fs cur : Dict Entry) : Prop :=
  ∀ k, match get fs k, get cur k with
    | none, none => True
    | some e, some c => ∀ x, x ∉ attrs.map (·.1) → x ≠ "web_url" → get c x = get e x
    | _, _ => False

theorem Agrees.some {attrs : Entry} {fs cur : Dict Entry} (h : Agrees attrs fs cur) {k : String} {e : Entry} (hk : get fs k = some e) :
    ∃ c, get cur k = some c ∧ ∀ x, x ∉ attrs.map (·.1) → x ≠ "web_url" → get c x = get e x := by
  have := h k
  rw [hk] at this
  cases hc : get cur k with
  | none => rw [hc] at this; exact this.elim
  | some c => rw [hc] at this; exact ⟨c, rfl, this⟩

theorem Agrees.refl (attrs : Entry) (fs : Dict Entry) : Agrees attrs fs fs := by
  intro k
  cases get fs k with
  | none => trivial
  | some e => intro x _ _; rfl

theorem said_congr {attrs : Entry} (archiveId : String) {c e : Entry} (h : ∀ x, x ∉ attrs.map (·.1) → x ≠ "web_url" → get c x = get e x) (x : String) :
    said attrs archiveId c x = said attrs archiveId e x := by
  unfold said
  by_cases hw : x = "web_url"
  · rw [if_pos hw, if_pos hw]
  · rw [if_neg hw, if_neg hw]
    by_cases hx : x ∈ attrs.map (·.1)
    · rw [← get_isSome] at hx
      cases hg : get attrs x with
      | none => rw [hg] at hx; cases hx
      | some v => rfl
    · rw [h x hx hw]

/-- What is assumed of an archive's answer, the filter and the given attributes. -/
structure Orderly (flt : Filter) (attrs : Entry) (fs : Dict Entry) : Prop where
  attrsOnce : (attrs.map (·.1)).Nodup
  filesOnce : (fs.map (·.1)).Nodup
  /-- the filter does not look at attributes that are given -/
  blind : ∀ e e' : Entry, (∀ x, x ∉ attrs.map (·.1) → x ≠ "web_url" → get e x = get e' x) → flt.apply e = flt.apply e'
  /-- nor do the attributes have names with a meaning of their own -/
  plain : ∀ x ∈ ["source", "original", "uri", "self", "request"], x ∉ attrs.map (·.1)
  decided : ∀ k e, get fs k = some e → ∃ b, flt.apply e = .ok b
  described : ∀ k e, get fs k = some e → flt.apply e = .ok true → ∃ m, Describes fs k m
  named : ∀ k e, get fs k = some e → ∀ x ∈ ["uri", "self", "request"], get e x = none

theorem archiveStep_ok (join : String → String → String) {flt : Filter} {attrs : Entry} {fs : Dict Entry} (o : Orderly flt attrs fs) (archiveId : String)
    {cur : Dict Entry} (h : Agrees attrs fs cur) {k : String} {e : Entry} (hk : get fs k = some e) :
    (accepts flt e = false ∧ archiveStep join flt attrs archiveId cur k = .ok (cur, none)) ∨
      (accepts flt e = true ∧ ∃ m d cur' y, Describes fs k m ∧ get fs m = some d ∧ Agrees attrs fs cur' ∧
        archiveStep join flt attrs archiveId cur k = .ok (cur', some y) ∧ y.1 = soundUrl join archiveId k ∧
        ∀ x, get y.2 x = said attrs archiveId d x) := by
  obtain ⟨c, hc, hce⟩ := h.some hk
  have happ : flt.apply c = flt.apply e := o.blind c e hce
  obtain ⟨b, hb⟩ := o.decided k e hk
  unfold archiveStep accepts
  simp only [hc, Option.getD_some, happ, hb]
  cases b with
  | false => left; simp
  | true =>
    right
    refine ⟨rfl, ?_⟩
    obtain ⟨m, hm⟩ := o.described k e hk hb
    have hm' := hm
    obtain ⟨e', he', hcase⟩ := hm'
    have : e' = e := by rw [hk] at he'; exact (Option.some.inj he').symm
    subst this
    have hsrc : get c "source" = get e' "source" := hce _ (o.plain _ (by simp)) (by decide)
    have horg : get c "original" = get e' "original" := hce _ (o.plain _ (by simp)) (by decide)
    have hdm : ∃ d, get fs m = some d := by
      rcases hcase with ⟨_, rfl⟩ | ⟨_, _, _, _, hs⟩
      · exact ⟨e', hk⟩
      · exact Option.isSome_iff_exists.1 hs
    obtain ⟨d, hd⟩ := hdm
    obtain ⟨cm, hcm, hcmd⟩ := h.some hd
    have hmeta : metadataOf cur k c = .ok m := by
      unfold metadataOf
      rw [hsrc, horg]
      rcases hcase with ⟨hs, rfl⟩ | ⟨hs, o', ho, rfl, hsome⟩
      · rw [hs]; simp
      · rw [hs, ho]
        simp [hcm]
    have hnone : ∀ x, x = "uri" ∨ x = "self" ∨ x = "request" ∨ x ∈ ([] : List String) → get (enriched attrs archiveId cm) x = none := by
      intro x hx
      rw [get_enriched attrs o.attrsOnce, said_congr archiveId hcmd]
      have hx' : x ∈ ["uri", "self", "request"] := by simpa using hx
      have hx2 : x ∈ ["source", "original", "uri", "self", "request"] := by
        have : x = "uri" ∨ x = "self" ∨ x = "request" := by simpa using hx
        rcases this with h | h | h <;> simp [h]
      have hw : x ≠ "web_url" := by
        have : x = "uri" ∨ x = "self" ∨ x = "request" := by simpa using hx
        rcases this with h | h | h <;> rw [h] <;> decide
      unfold said
      rw [if_neg hw, (get_none attrs x).2 (o.plain x hx2), o.named m d hd x hx']
      rfl
    simp only [hmeta, hcm, Option.getD_some, audioMetaData_ok _ _ _ hnone]
    refine ⟨m, d, put cur m (enriched attrs archiveId cm), (soundUrl join archiveId k, enriched attrs archiveId cm), hm, hd, ?_, rfl, rfl, ?_⟩
    · intro k'
      rw [get_put]
      by_cases hkm : k' = m
      · subst hkm
        rw [if_pos rfl, hd]
        intro x hx hw
        rw [get_enriched attrs o.attrsOnce]
        unfold said
        rw [if_neg hw, (get_none attrs x).2 hx, hcmd x hx hw]
        rfl
      · rw [if_neg hkm]
        exact h k'
    · intro x
      rw [get_enriched attrs o.attrsOnce, said_congr archiveId hcmd]

theorem archiveLoop_ok (join : String → String → String) {flt : Filter} {attrs : Entry} {fs : Dict Entry} (o : Orderly flt attrs fs) (archiveId : String) :
    ∀ (l : Dict Entry) (cur : Dict Entry), Agrees attrs fs cur → (∀ ke ∈ l, get fs ke.1 = some ke.2) →
      ∃ ys, archiveLoop join flt attrs archiveId cur (l.map (·.1)) = (ys, none) ∧
        List.Forall₂ (fun (ke : String × Entry) (y : String × Entry) => y.1 = soundUrl join archiveId ke.1 ∧
          ∃ m d, Describes fs ke.1 m ∧ get fs m = some d ∧ ∀ x, get y.2 x = said attrs archiveId d x) (l.filter fun ke => accepts flt ke.2) ys := by
  intro l
  induction l with
  | nil => intro cur _ _; exact ⟨[], rfl, List.Forall₂.nil⟩
  | cons ke l ih =>
    intro cur hag hl
    have hke := hl ke (by simp)
    have hl' : ∀ ke ∈ l, get fs ke.1 = some ke.2 := fun x hx => hl x (by simp [hx])
    rcases archiveStep_ok join o archiveId hag hke with ⟨hacc, hstep⟩ | ⟨hacc, m, d, cur', y, hm, hd, hag', hstep, hy, hyx⟩
    · obtain ⟨ys, h1, h2⟩ := ih cur hag hl'
      refine ⟨ys, ?_, ?_⟩
      · rw [List.map_cons, archiveLoop, hstep]
        exact h1
      · rw [List.filter_cons, hacc]
        exact h2
    · obtain ⟨ys, h1, h2⟩ := ih cur' hag' hl'
      refine ⟨y :: ys, ?_, ?_⟩
      · rw [List.map_cons, archiveLoop, hstep]
        simp only [h1]
      · rw [List.filter_cons, hacc]
        exact List.Forall₂.cons ⟨hy, m, d, hm, hd, hyx⟩ h2

theorem get_of_mem {V : Type} (d : Dict V) (h : (d.map (·.1)).Nodup) : ∀ kv ∈ d, get d kv.1 = some kv.2 := by
  induction d with
  | nil => intro kv hkv; cases hkv
  | cons kv d ih =>
    intro kv' hkv'
    rw [List.map_cons, List.nodup_cons] at h
    rw [get_cons]
    rcases List.mem_cons.1 hkv' with rfl | hm
    · simp
    · have : kv.1 ≠ kv'.1 := by
        intro e
        exact h.1 (e ▸ List.mem_map_of_mem hm)
      rw [if_neg this]
      exact ih h.2 kv' hm

/-- **C201**: one sound for every file the filter accepts, in the archive's order, to be fetched from that file's own address; its metadata is what the archive says of
the file that describes it, then the given attributes, then the address of the page. -/
theorem C201_archive (join : String → String → String) (archiveId : String) (hid : archiveId ≠ "") (flt : Filter) (attrs : Entry) (fs : Dict Entry)
    (o : Orderly flt attrs fs) :
    ∃ ys, internetArchive join archiveId flt attrs (.files fs) = (ys, none) ∧
      List.Forall₂ (fun (ke : String × Entry) (y : String × Entry) => y.1 = soundUrl join archiveId ke.1 ∧
        ∃ m d, Describes fs ke.1 m ∧ get fs m = some d ∧ ∀ x, get y.2 x = said attrs archiveId d x) (fs.filter fun ke => accepts flt ke.2) ys := by
  obtain ⟨ys, h1, h2⟩ := archiveLoop_ok join o archiveId fs fs (Agrees.refl attrs fs) (get_of_mem fs o.filesOnce)
  refine ⟨ys, ?_, h2⟩
  unfold internetArchive
  rw [if_neg hid]
  exact h1

/-- C201: refused without an id, nothing from an answer that is not JSON. -/
theorem C201_refused (join : String → String → String) (flt : Filter) (attrs : Entry) (a : Answer) (archiveId : String) (hid : archiveId ≠ "") :
    internetArchive join "" flt attrs a = ([], some (.py .valueError)) ∧ internetArchive join archiveId flt attrs .notJson = ([], none) := by
  constructor
  · rfl
  · unfold internetArchive; rw [if_neg hid]

example := C201_refused (fun _ x => x) .default [("tags", .text "talk")] (.files []) "id" (by decide)

/-- An archive with an original and a file derived from it. -/
def speech : Dict Entry :=
  [("/a.ogg", [("format", .text "Ogg Vorbis"), ("source", .text "derivative"), ("original", .text "a.flac")]),
   ("/a.flac", [("format", .text "Flac"), ("source", .text "original"), ("length", .text "12")])]

/-- Of these two files the default filter accepts the Ogg Vorbis one, and its metadata is that of the other, with what was added. -/
example : ∃ m, internetArchive (fun _ x => x) "id" .default [("tags", .text "talk")] (.files speech) =
    ([("/download/id/a.ogg", m)], none) ∧ get m "format" = some (.text "Flac") ∧ get m "tags" = some (.text "talk") := by
  exact ⟨[("format", .text "Flac"), ("source", .text "original"), ("length", .text "12"), ("tags", .text "talk"),
    ("web_url", .text "https://archive.org//details/id")], by decide +kernel, by decide +kernel, by decide +kernel⟩

theorem speech_get (k : String) (e : Entry) (h : get speech k = some e) :
    (k, e) ∈ speech := by
  unfold speech at h ⊢
  rw [get_cons, get_cons] at h
  split at h
  · rename_i hk; simp_all
  · split at h
    · rename_i hk; simp_all
    · simp [Ops.get] at h

/-- The hypotheses of C201 hold of this archive. -/
theorem speech_orderly : Orderly .default [("tags", .text "talk")] speech where
  attrsOnce := by simp
  filesOnce := by decide +kernel
  blind := by
    intro e e' h
    have := h "format" (by simp) (by decide)
    simp [Filter.apply, this]
  plain := by simp
  decided := by
    intro k e h
    have := speech_get k e h
    simp only [speech, List.mem_cons, Prod.mk.injEq, List.not_mem_nil, or_false] at this
    rcases this with ⟨_, rfl⟩ | ⟨_, rfl⟩
    · exact ⟨true, by decide +kernel⟩
    · exact ⟨false, by decide +kernel⟩
  described := by
    intro k e h hb
    have := speech_get k e h
    simp only [speech, List.mem_cons, Prod.mk.injEq, List.not_mem_nil, or_false] at this
    rcases this with ⟨rfl, rfl⟩ | ⟨rfl, rfl⟩
    · exact ⟨"/a.flac", _, h, Or.inr ⟨by decide +kernel, "a.flac", by decide +kernel, by decide +kernel, by decide +kernel⟩⟩
    · exact ⟨"/a.flac", _, h, Or.inl ⟨by decide +kernel, rfl⟩⟩
  named := by
    intro k e h x hx
    have := speech_get k e h
    simp only [speech, List.mem_cons, Prod.mk.injEq, List.not_mem_nil, or_false] at this
    simp only [List.mem_cons, List.not_mem_nil, or_false] at hx
    rcases this with ⟨rfl, rfl⟩ | ⟨rfl, rfl⟩ <;> rcases hx with rfl | rfl | rfl <;> decide +kernel

/-- **C202, refuted**: the given attributes do not decide which files are yielded.  With `format='Ogg Vorbis'` given, the original, a FLAC file, is yielded too, since the
entry that the filter sees has been changed. -/
theorem C202_attrs_refuted :
    ∃ (join : String → String → String) (fs : Dict Entry) (attrs : Entry),
      (internetArchive join "id" .default [] (.files fs)).1.map (·.1) = ["/download/id/a.ogg"] ∧
      (internetArchive join "id" .default attrs (.files fs)).1.map (·.1) = ["/download/id/a.ogg", "/download/id/a.flac"] :=
  ⟨fun _ x => x, speech, [("format", .text "Ogg Vorbis")], by decide +kernel, by decide +kernel⟩

/-- **C203, refuted**: the metadata of a sound describes the file that is fetched.  A derived file is yielded with its original's format and length. -/
theorem C203_describes_refuted :
    ∃ (join : String → String → String) (fs : Dict Entry) (m : Entry),
      internetArchive join "id" .default [] (.files fs) = ([("/download/id/a.ogg", m)], none) ∧
      get ((get fs "/a.ogg").getD []) "format" = some (.text "Ogg Vorbis") ∧ get m "format" = some (.text "Flac") :=
  ⟨fun _ x => x, speech, [("format", .text "Flac"), ("source", .text "original"), ("length", .text "12"),
    ("web_url", .text "https://archive.org//details/id")], by decide +kernel, by decide +kernel, by decide +kernel⟩

/-- **C204, refuted**: `format_filter` may be a string, the format to return.  Any text but the empty one is a TypeError on the first file. -/
theorem C204_filter_refuted (join : String → String → String) (archiveId : String) (hid : archiveId ≠ "") (s : String) (hs : s ≠ "") (attrs : Entry)
    (fs : Dict Entry) (hfs : fs ≠ []) : internetArchive join archiveId (.text s) attrs (.files fs) = ([], some (.py .typeError)) := by
  cases fs with
  | nil => exact absurd rfl hfs
  | cons ke fs =>
    unfold internetArchive
    rw [if_neg hid]
    simp [archiveLoop, archiveStep, Filter.apply, hs]

/-- **C205, refuted**: an id without files yields nothing.  An answer without files is a KeyError. -/
theorem C205_unknown_refuted (join : String → String → String) (archiveId : String) (hid : archiveId ≠ "") (flt : Filter) (attrs : Entry) :
    internetArchive join archiveId flt attrs .noFiles = ([], some (.py .keyError)) := by
  unfold internetArchive
  rw [if_neg hid]

/-- C203: what ends the files of an archive: a description that has a property `uri` or `self` is a TypeError, one with a property `request` an AttributeError; the original of a derived file that
is not named by text is a TypeError. -/
theorem C203_ends {U V : Type} (u : U) (d : Dict V) (files : Dict Entry) (k : String) (e : Entry) (n : Nat) (hs : get e "source" = some (.text "derivative"))
    (ho : get e "original" = some (.other n)) :
    ("uri" ∈ d.map (·.1) ∨ "self" ∈ d.map (·.1) → audioMetaData u [] d = .error (.py .typeError)) ∧
    ("uri" ∉ d.map (·.1) → "self" ∉ d.map (·.1) → "request" ∈ d.map (·.1) → audioMetaData u [] d = .error (.py .attributeError)) ∧
    metadataOf files k e = .error (.py .typeError) := by
  refine ⟨?_, ?_, ?_⟩
  · intro h
    unfold audioMetaData
    refine if_pos (List.any_eq_true.2 ?_)
    rcases h with h | h <;> obtain ⟨kv, h1, h2⟩ := List.mem_map.1 h <;> exact ⟨kv, h1, by simp [h2]⟩
  · intro h1 h2 h3
    unfold audioMetaData
    refine (if_neg ?_).trans (if_pos (List.any_eq_true.2 ?_))
    · intro h
      obtain ⟨kv, h4, h5⟩ := List.any_eq_true.1 h
      simp only [List.not_mem_nil, or_false, decide_eq_true_eq] at h5
      rcases h5 with h5 | h5
      · exact h1 (List.mem_map.2 ⟨kv, h4, h5⟩)
      · exact h2 (List.mem_map.2 ⟨kv, h4, h5⟩)
    · obtain ⟨kv, h4, h5⟩ := List.mem_map.1 h3
      exact ⟨kv, h4, by simp [h5]⟩
  · unfold metadataOf
    rw [hs, ho]
    rfl

example := C203_ends "u" [("size", 3), ("uri", 4)] [] "/a.ogg" [("source", .text "derivative"), ("original", .other 7)] 7 (by decide +kernel) (by decide +kernel)

example : audioMetaData "u" [] [("size", 3), ("uri", 4)] = .error (.py .typeError) ∧ audioMetaData "u" [] [("request", 4)] = .error (.py .attributeError) ∧
    metadataOf [] "/a.ogg" [("source", .text "derivative"), ("original", .other 7)] = .error (.py .typeError) := by decide +kernel

/-! ## NSynth -/

/-- A sound of the data set: a regular file whose name does not end with `.json`. -/
def isSound (m : Member) : Bool := m.isFile && !isJson m

theorem lastJson_spec (parse : Bytes → Except Fail Catalogue) : ∀ (ms : List Member) (c : Option Catalogue),
    (∀ m ∈ ms, isJson m = true → m.isFile = true ∧ ∃ c, parse m.content = .ok c) →
    lastJson parse c ms = .ok (match (ms.filter isJson).getLast? with
      | none => c
      | some m => (parse m.content).toOption) := by
  intro ms
  induction ms with
  | nil => intro c _; rfl
  | cons m ms ih =>
    intro c h
    have h' : ∀ m ∈ ms, isJson m = true → m.isFile = true ∧ ∃ c, parse m.content = .ok c := fun x hx => h x (by simp [hx])
    rw [lastJson, List.filter_cons]
    by_cases hj : isJson m = true
    · obtain ⟨hf, c', hc'⟩ := h m (by simp) hj
      rw [if_pos hj, if_pos hf, if_pos hj, hc']
      simp only []
      rw [ih (some c') h']
      cases hl : (ms.filter isJson).getLast? with
      | none =>
        have : ms.filter isJson = [] := List.getLast?_eq_none_iff.1 hl
        simp [this, hc', Except.toOption]
      | some x => rw [List.getLast?_cons, hl]; simp
    · rw [if_neg hj, if_neg hj]
      exact ih c h'

/-- **C206**: one sound for every regular file that is no JSON file, in the order of the archive, with its own bytes and the description that the last JSON file
gives of its name without directories and extension. -/
theorem C206_nsynth (pre : Text) (hpre : pre ≠ []) (parse : Bytes → Except Fail Catalogue) (members : List Member)
    (hjson : ∀ m ∈ members, isJson m = true → m.isFile = true ∧ ∃ c, parse m.content = .ok c)
    (last : Member) (hlast : (members.filter isJson).getLast? = some last) (c : Catalogue) (hc : parse last.content = .ok c)
    (hsounds : ∀ m ∈ members, isSound m = true → ∃ d, c (stem (baseName m.name)) = some d ∧
      ∀ x ∈ ["uri", "self", "request", "web_url"], get d x = none) :
    ∃ ys, nsynth pre parse members = (ys, none) ∧
      List.Forall₂ (fun (m : Member) (y : PreDownload × Dict Val) => y.1.content = m.content ∧ y.1.url = pre ++ stem (baseName m.name) ∧
        c (stem (baseName m.name)) = some y.2) (members.filter isSound) ys := by
  unfold nsynth
  rw [lastJson_spec parse members none hjson, hlast]
  simp only [hc, Except.toOption]
  clear hlast hjson
  induction members with
  | nil => exact ⟨[], rfl, List.Forall₂.nil⟩
  | cons m ms ih =>
    obtain ⟨ys, h1, h2⟩ := ih (fun x hx => hsounds x (by simp [hx]))
    rw [nsynthLoop, List.filter_cons]
    by_cases hs : isSound m = true
    · have hs' : ¬ (isJson m = true ∨ m.isFile = false) := by
        unfold isSound at hs
        revert hs
        cases isJson m <;> cases m.isFile <;> simp
      obtain ⟨d, hd, hn⟩ := hsounds m (by simp) hs
      rw [if_neg hs', if_pos hs]
      have hu : nsynthUrl pre (stem (baseName m.name)) ≠ [] := by
        unfold nsynthUrl; simp [hpre]
      have : nsynthSound pre (some c) m = .ok (⟨m.content, nsynthUrl pre (stem (baseName m.name))⟩, d) := by
        unfold nsynthSound PreDownload.new
        simp only [hu, if_false, hd]
        exact audioMetaData_ok _ _ _ (by
          intro x hx
          apply hn
          simp only [List.mem_cons, List.not_mem_nil, or_false] at hx ⊢
          exact hx)
      rw [this]
      simp only [h1]
      exact ⟨_, rfl, List.Forall₂.cons ⟨rfl, rfl, hd⟩ h2⟩
    · have hs' : isJson m = true ∨ m.isFile = false := by
        unfold isSound at hs
        revert hs
        cases isJson m <;> cases m.isFile <;> simp
      rw [if_pos hs', if_neg hs]
      exact ⟨ys, h1, h2⟩

/-- The name of a sound `dir/name.ext` is `name`, whatever the directories, if the name is not all dots and the extension has no dot. -/
theorem C206_name (dir name ext : Text) (hn : '/' ∉ name) (he : '/' ∉ ext) (hd : '.' ∉ ext) (hname : ∃ ch ∈ name, ch ≠ '.') :
    stem (baseName (dir ++ '/' :: (name ++ '.' :: ext))) = name ∧ stem (baseName (name ++ '.' :: ext)) = name := by
  have hslash : '/' ∉ name ++ '.' :: ext := by
    simp only [List.mem_append, List.mem_cons, not_or]
    exact ⟨hn, by decide, he⟩
  have hb : baseName (dir ++ '/' :: (name ++ '.' :: ext)) = name ++ '.' :: ext := by
    unfold baseName
    rw [List.reverse_append, List.reverse_cons, List.append_assoc]
    rw [List.takeWhile_append_of_pos]
    · simp
    · intro a ha
      have : a ≠ '/' := fun h => hslash (h ▸ List.mem_reverse.1 ha)
      simpa using this
  have hb2 : baseName (name ++ '.' :: ext) = name ++ '.' :: ext := by
    unfold baseName
    have : (name ++ '.' :: ext).reverse.takeWhile (· ≠ '/') = (name ++ '.' :: ext).reverse := by
      have hall : ∀ a ∈ (name ++ '.' :: ext).reverse, decide (a ≠ '/') = true := by
        intro a ha
        have : a ≠ '/' := fun h => hslash (h ▸ List.mem_reverse.1 ha)
        simpa using this
      have := List.takeWhile_append_of_pos (l₂ := []) hall
      simpa using this
    rw [this, List.reverse_reverse]
  have hs : stem (name ++ '.' :: ext) = name := by
    have hidx : (name ++ '.' :: ext).reverse.idxOf '.' = ext.length := by
      rw [List.reverse_append, List.reverse_cons, List.append_assoc, List.idxOf_append]
      have : '.' ∉ ext.reverse := fun h => hd (List.mem_reverse.1 h)
      rw [if_neg this]
      simp
    have htake : (name ++ '.' :: ext).take ((name ++ '.' :: ext).length - 1 - (name ++ '.' :: ext).reverse.idxOf '.') = name := by
      rw [hidx]
      have : (name ++ '.' :: ext).length - 1 - ext.length = name.length := by simp
      rw [this, List.take_left']
      rfl
    unfold stem
    rw [htake, if_pos]
    refine ⟨by simp, ?_⟩
    obtain ⟨ch, hch, hne⟩ := hname
    rw [List.any_eq_true]
    exact ⟨ch, hch, by simpa using hne⟩
  rw [hb, hb2]
  exact ⟨hs, hs⟩

example : stem (baseName "dir/tone.1.wav".toList) = "tone.1".toList := by decide +kernel
example := (C206_name ['d', '/', 'e'] ['t', '.', '1'] ['w', 'a', 'v'] (by decide) (by decide) (by decide) ⟨'t', by decide, by decide⟩).1

/-- C206: without any JSON file the first sound is a TypeError, and a sound that no JSON file describes is a KeyError. -/
theorem C206_undescribed (pre : Text) (hpre : pre ≠ []) (parse : Bytes → Except Fail Catalogue) (m : Member) (hm : isSound m = true) (ms : List Member) :
    ((∀ x ∈ ms, isJson x = false) → nsynth pre parse (m :: ms) = ([], some (.py .typeError))) ∧
    (∀ c, lastJson parse none (m :: ms) = .ok (some c) → c (stem (baseName m.name)) = none → nsynth pre parse (m :: ms) = ([], some (.py .keyError))) := by
  have hu : nsynthUrl pre (stem (baseName m.name)) ≠ [] := by unfold nsynthUrl; simp [hpre]
  have hs' : ¬ (isJson m = true ∨ m.isFile = false) := by
    unfold isSound at hm
    revert hm
    cases isJson m <;> cases m.isFile <;> simp
  constructor
  · intro h
    have hj : isJson m = false := by
      cases hh : isJson m with
      | true => exact absurd (Or.inl hh) hs'
      | false => rfl
    have hl : lastJson parse none (m :: ms) = .ok none := by
      rw [lastJson_spec parse (m :: ms) none]
      · have : (m :: ms).filter isJson = [] := by
          rw [List.filter_eq_nil_iff]
          intro x hx
          rcases List.mem_cons.1 hx with rfl | hx
          · simp [hj]
          · simp [h x hx]
        rw [this]; rfl
      · intro x hx hjx
        rcases List.mem_cons.1 hx with rfl | hx
        · rw [hj] at hjx; cases hjx
        · rw [h x hx] at hjx; cases hjx
    unfold nsynth
    rw [hl]
    simp only []
    rw [nsynthLoop, if_neg hs']
    simp [nsynthSound, PreDownload.new, hu]
  · intro c hc hno
    unfold nsynth
    rw [hc]
    simp only []
    rw [nsynthLoop, if_neg hs']
    simp [nsynthSound, PreDownload.new, hu, hno]

/-- C206: a JSON file that cannot be read ends the iteration before the first sound, with the reader's exception. -/
theorem C206_unreadable (pre : Text) (parse : Bytes → Except Fail Catalogue) (before after : List Member) (hb : ∀ m ∈ before, isJson m = false) (m : Member) (hm : isJson m = true)
    (hf : m.isFile = true) (x : Fail) (hx : parse m.content = .error x) : nsynth pre parse (before ++ m :: after) = ([], some x) := by
  have h : ∀ c, lastJson parse c (before ++ m :: after) = .error x := by
    induction before with
    | nil => intro c; rw [List.nil_append, lastJson, if_pos hm, if_pos hf, hx]
    | cons b bs ih =>
      intro c
      rw [List.cons_append, lastJson, if_neg (by rw [hb b List.mem_cons_self]; simp)]
      exact ih (fun y hy => hb y (List.mem_cons_of_mem _ hy)) c
  unfold nsynth
  rw [h]

/-- An archive of two sounds. -/
def valid : List Member :=
  [⟨['v'], false, []⟩, ⟨['v', '/', 'a', '.', 'w', 'a', 'v'], true, [1, 2]⟩, ⟨['v', '/', 'x', '.', 'j', 's', 'o', 'n'], true, [0]⟩,
    ⟨['v', '/', 'b', '.', 'w', 'a', 'v'], true, [3]⟩]

/-- It has one JSON file, at the third place, and the sounds `a` and `b`. -/
example : (valid.filter isSound).map (fun m => stem (baseName m.name)) = [['a'], ['b']] ∧
    (valid.filter isJson).getLast? = some ⟨['v', '/', 'x', '.', 'j', 's', 'o', 'n'], true, [0]⟩ ∧
    (nsynth ['u', '/'] (fun _ => .ok fun i => some [("pitch", .other i.length)]) valid).1 =
      [(⟨[1, 2], ['u', '/', 'a']⟩, [("pitch", .other 1)]), (⟨[3], ['u', '/', 'b']⟩, [("pitch", .other 1)])] := by
  decide +kernel

example : nsynth ['u', '/'] (fun _ => .error (.py .valueError)) valid = ([], some (.py .valueError)) :=
  C206_unreadable _ _ (valid.take 2) (valid.drop 3) (by decide +kernel) ⟨['v', '/', 'x', '.', 'j', 's', 'o', 'n'], true, [0]⟩ (by decide +kernel) rfl _ rfl

/-- **C207, refuted**: the stored metadata of a downloaded sound names the url it came from.  For a sound in memory no uri is stored. -/
theorem C207_uri_refuted (content : Bytes) (url : Text) (hurl : url ≠ []) :
    ∃ p, PreDownload.new content url = .ok p ∧ p.url = url ∧ p.content = content ∧ p.request = some p ∧ p.encodedUri = none := by
  refine ⟨⟨content, url⟩, ?_, rfl, rfl, rfl, rfl⟩
  unfold PreDownload.new
  rw [if_neg hurl]

/-- C207: a sound in memory without a url is a ValueError. -/
theorem C207_no_url (content : Bytes) : PreDownload.new content [] = .error (.py .valueError) := rfl

/-! ## MusicNet, PhatDrumLoops -/

/-- **C208, refuted**: MusicNet yields one sound for every training file.  The metadata file is read as bytes, which the csv reader refuses; if it is empty, the first
training file is a KeyError.  Nothing is ever yielded. -/
theorem C208_musicnet_refuted {Row : Type} (parse : List Text → List Row) (idOf : Row → Text) (sound : Text → Except Fail Bytes) (metadata : List Text)
    (f : Text) (listing : List Text) :
    musicNet parse idOf sound metadata (f :: listing) = ([], some (if metadata = [] then .py .keyError else .csvError)) := by
  cases metadata with
  | nil => simp [musicNet, csvRows, musicNet.loop]
  | cons l ls => simp [musicNet, csvRows]

/-- **C209, refuted**: PhatDrumLoops yields the loops linked on the page.  Whatever the page, looking for links in its bytes with a text pattern is a TypeError. -/
theorem C209_phat_refuted {M : Type} (matches_ : Text → List M) (page : Bytes) : phatDrumLoops matches_ (some page) = ([], some (.py .typeError)) := rfl

/-! ## Directory -/

theorem joinPath_inj (path a b : Text) (h : joinPath path a = joinPath path b) : a = b := by
  unfold joinPath at h
  split at h
  · exact List.append_cancel_left h
  · have := List.append_cancel_left h
    exact (List.cons.inj this).2

/-- **C210**: a Directory yields the path of every entry that is no directory, each once, in the order of the listing, and nothing else; the paths lie in the directory. -/
theorem C210_directory (path : Text) (names : List Text) (hn : names.Nodup) (isDir : Text → Bool) :
    (directory path names isDir).Nodup ∧ (directory path names isDir).Sublist (names.map (joinPath path)) ∧
    (∀ n, joinPath path n ∈ directory path names isDir ↔ n ∈ names ∧ isDir (joinPath path n) = false) ∧
    (∀ p ∈ directory path names isDir, ∃ n ∈ names, p = path ++ n ∨ p = path ++ '/' :: n) := by
  unfold directory
  refine ⟨?_, ?_, ?_, ?_⟩
  · exact (hn.filter _).map (fun a b h => joinPath_inj path a b h)
  · exact (List.filter_sublist).map _
  · intro n
    rw [List.mem_map]
    constructor
    · rintro ⟨a, ha, e⟩
      have := joinPath_inj path a n e
      subst this
      rw [List.mem_filter] at ha
      exact ⟨ha.1, by simpa using ha.2⟩
    · rintro ⟨h1, h2⟩
      exact ⟨n, List.mem_filter.2 ⟨h1, by simp [h2]⟩, rfl⟩
  · intro p hp
    rw [List.mem_map] at hp
    obtain ⟨n, hn, rfl⟩ := hp
    refine ⟨n, (List.mem_filter.1 hn).1, ?_⟩
    unfold joinPath
    split
    · exact Or.inl rfl
    · exact Or.inr rfl

example := C210_directory ['d'] [['a'], ['s'], ['b']] (by decide) (· = ['d', '/', 's'])

/-- Two files and a directory; the path may end with a slash. -/
example : directory ['d'] [['a'], ['s'], ['b']] (· = ['d', '/', 's']) = [['d', '/', 'a'], ['d', '/', 'b']] ∧
    directory ['d', '/'] [['a'], ['s'], ['b']] (· = ['d', '/', 's']) = [['d', '/', 'a'], ['d', '/', 'b']] := by decide

/-! ## FreeSoundSearch -/

theorem item_ok {d : Dict Val} {k : String} {v : Val} : item d k = .ok v ↔ get d k = some v := by
  unfold item
  cases get d k <;> simp

theorem item_none {d : Dict Val} {k : String} (h : get d k = none) : item d k = .error (.py .keyError) := by
  unfold item; rw [h]

/-- **C211**: a sound of freesound.org becomes metadata with its high quality preview, to be fetched with the caller's token, its rate, channels, license, description,
tags and page, exactly if it has all of these; otherwise KeyError. -/
theorem C211_freesound (apiKey : String) (s : Sound) :
    (∀ r, freeSoundMetaData apiKey s = .ok r ↔
      (∃ pv, s.previews = some pv ∧ get pv "preview-hq-ogg" = some r.url) ∧ r.token = apiKey ∧
      get s.props "samplerate" = some r.samplerate ∧ get s.props "channels" = some r.channels ∧ get s.props "license" = some r.licensing ∧
      get s.props "description" = some r.description ∧ get s.props "tags" = some r.tags ∧
      r.webUrl.1 = "https://freesound.org/people/" ∧ get s.props "username" = some r.webUrl.2.1 ∧ get s.props "id" = some r.webUrl.2.2) ∧
    (∀ x, freeSoundMetaData apiKey s = .error x → x = .py .keyError) := by
  unfold freeSoundMetaData
  cases hp : s.previews with
  | none => simp
  | some pv =>
    cases hu : get pv "preview-hq-ogg" with
    | none => simp [hu]
    | some url =>
      simp only [hu, Bind.bind, Pure.pure, Except.bind, Except.pure]
      cases h1 : get s.props "username" with
      | none => rw [item_none h1]; simp
      | some v1 =>
      rw [item_ok.2 h1]
      cases h2 : get s.props "id" with
      | none => rw [item_none h2]; simp
      | some v2 =>
      rw [item_ok.2 h2]
      cases h3 : get s.props "samplerate" with
      | none => rw [item_none h3]; simp
      | some v3 =>
      rw [item_ok.2 h3]
      cases h4 : get s.props "channels" with
      | none => rw [item_none h4]; simp
      | some v4 =>
      rw [item_ok.2 h4]
      cases h5 : get s.props "license" with
      | none => rw [item_none h5]; simp
      | some v5 =>
      rw [item_ok.2 h5]
      cases h6 : get s.props "description" with
      | none => rw [item_none h6]; simp
      | some v6 =>
      rw [item_ok.2 h6]
      cases h7 : get s.props "tags" with
      | none => rw [item_none h7]; simp
      | some v7 =>
      rw [item_ok.2 h7]
      constructor
      · rintro ⟨url', tok, a, b, c, d, e, w1, w2, w3⟩
        simp only [Except.ok.injEq, FreeSound.mk.injEq, Prod.mk.injEq, Option.some.injEq, exists_eq_left', hu]
        constructor
        · rintro ⟨rfl, rfl, rfl, rfl, rfl, rfl, rfl, rfl, rfl, rfl⟩; simp
        · rintro ⟨rfl, rfl, rfl, rfl, rfl, rfl, rfl, rfl, rfl, rfl⟩; simp
      · intro x hx; cases hx

/-- A sound that has all of them. -/
example : ∃ r, freeSoundMetaData "key" ⟨some [("preview-hq-ogg", "http://x")], [("username", .text "u"), ("id", .other 7), ("samplerate", .other 44100),
    ("channels", .other 2), ("license", .text "by"), ("description", .text ""), ("tags", .other 0)]⟩ = .ok r ∧ r.samplerate = .other 44100 :=
  ⟨_, rfl, rfl⟩

example := C206_nsynth ['u', '/'] (by decide) (fun _ => .ok fun i => some [("pitch", .other i.length)]) valid
  (fun m hm hj => ⟨by revert m; decide +kernel, _, rfl⟩) ⟨['v', '/', 'x', '.', 'j', 's', 'o', 'n'], true, [0]⟩ (by decide +kernel) _ rfl
  (fun m _ _ => ⟨_, rfl, by intro x hx; simp only [List.mem_cons, List.not_mem_nil, or_false] at hx; rcases hx with rfl | rfl | rfl | rfl <;> simp [Ops.get]⟩)
example : nsynth ['u', '/'] (fun _ => .ok fun _ => none) [⟨['v', '/', 'a', '.', 'w', 'a', 'v'], true, [1, 2]⟩] = ([], some (.py .typeError)) :=
  (C206_undescribed _ (by decide) _ _ (by decide +kernel) []).1 (by simp)
example : nsynth ['u', '/'] (fun _ => .ok fun _ => none) [⟨['v', '/', 'a', '.', 'w', 'a', 'v'], true, [1, 2]⟩, ⟨['v', '/', 'x', '.', 'j', 's', 'o', 'n'], true, [0]⟩] =
    ([], some (.py .keyError)) :=
  (C206_undescribed _ (by decide) _ _ (by decide +kernel) _).2 _ rfl rfl

end Zounds.Archives
