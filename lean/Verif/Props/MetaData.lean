import Verif.Model.MetaData
import Mathlib.Data.List.TakeWhile
import Mathlib.Tactic.Common

/-!
# C147–C153: metadata of audio sources
-/

namespace Zounds.MetaData

/-! ## specification -/

/-- `s` is an absolute url: a scheme, `://`, a network location that is not empty, and a path, query or fragment. -/
def IsAbsoluteUrl (s : Text) : Prop := ∃ scheme net tail : Text,
  s = scheme ++ [':', '/', '/'] ++ net ++ tail ∧
  scheme ≠ [] ∧ (scheme.headD ' ').isAlpha ∧ (∀ c ∈ scheme, c.isAlphanum ∨ c = '+' ∨ c = '-' ∨ c = '.') ∧
  net ≠ [] ∧ (∀ c ∈ net, c ≠ '/' ∧ c ≠ '?' ∧ c ≠ '#') ∧ ('[' ∈ net ↔ ']' ∈ net) ∧
  (tail = [] ∨ tail.headD ' ' = '/' ∨ tail.headD ' ' = '?' ∨ tail.headD ' ' = '#')

/-! ## C147: what a source is taken for -/

theorem takeWhile_append_stop {α : Type} (p : α → Bool) (a b : List α) (ha : ∀ x ∈ a, p x) (hb : b = [] ∨ ∃ c t, b = c :: t ∧ ¬ p c) :
    (a ++ b).takeWhile p = a := by
  rw [List.takeWhile_append_of_pos ha]
  rcases hb with rfl | ⟨c, t, rfl, hc⟩
  · simp
  · rw [List.takeWhile_cons_of_neg hc, List.append_nil]

theorem schemeChar_iff (c : Char) : schemeChar c ↔ c.isAlphanum ∨ c = '+' ∨ c = '-' ∨ c = '.' := by
  simp [schemeChar, or_assoc]

/-- **C147, urls**: text counts as a url exactly when it is an absolute one. -/
theorem C147_is_url (s : Text) : isUrl s = .ok true ↔ IsAbsoluteUrl s := by
  constructor
  · intro h
    unfold isUrl at h
    simp only [] at h
    have hs : s.takeWhile (· ≠ ':') ≠ s ∧ s.takeWhile (· ≠ ':') ≠ [] ∧ ((s.takeWhile (· ≠ ':')).headD ' ').isAlpha = true ∧
        (s.takeWhile (· ≠ ':')).all schemeChar = true := by
      by_contra hs
      rw [if_neg hs] at h
      have hd : ∀ q : Prop, ∀ inst, @decide ((s.takeWhile (· ≠ ':') ≠ s ∧ s.takeWhile (· ≠ ':') ≠ [] ∧
          ((s.takeWhile (· ≠ ':')).headD ' ').isAlpha = true ∧ (s.takeWhile (· ≠ ':')).all schemeChar = true) ∧ q) inst = false :=
        fun q inst => decide_eq_false fun hq => hs hq.1
      rw [hd] at h
      revert h
      by_cases e1 : s.take 2 = ['/', '/']
      · rw [if_pos e1]
        intro h
        split_ifs at h
        cases h
      · rw [if_neg e1]
        intro h
        cases h
    rw [if_pos hs] at h
    by_cases hsl : List.take 2 (s.drop ((s.takeWhile (· ≠ ':')).length + 1)) = ['/', '/']
    · rw [if_pos hsl] at h
      split_ifs at h with hbr
      · simp only [Except.ok.injEq, decide_eq_true_eq] at h
        obtain ⟨-, hn⟩ := h
        obtain ⟨h1, h2, h3, h4⟩ := hs
        set before := s.takeWhile (· ≠ ':') with hb
        have hdrop : ∃ c t, s.dropWhile (· ≠ ':') = c :: t := by
          cases hd : s.dropWhile (· ≠ ':') with
          | nil =>
            exfalso
            apply h1
            have := List.takeWhile_append_dropWhile (p := fun c => decide (c ≠ ':')) (l := s)
            rw [hd, List.append_nil] at this
            exact this
          | cons c t => exact ⟨c, t, rfl⟩
        obtain ⟨c, t, hd⟩ := hdrop
        have hc : c = ':' := by
          have := List.head_dropWhile_not (fun c => decide (c ≠ ':')) (l := s) (by rw [hd]; simp)
          simp only [hd, List.head_cons] at this
          simpa using this
        have hst : s = before ++ ':' :: t := by
          rw [← hc, ← hd]
          exact (List.takeWhile_append_dropWhile).symm
        have hrest : s.drop (before.length + 1) = t := by
          conv_lhs => rw [hst]
          rw [List.drop_append]
          simp
        rw [hrest] at hsl hn hbr
        obtain ⟨t', ht'⟩ : ∃ t', t = '/' :: '/' :: t' := by
          match t, hsl with
          | a :: b :: t', h => simp at h; exact ⟨t', by rw [h.1, h.2]⟩
        subst ht'
        simp only [List.drop_succ_cons, List.drop_zero] at hn hbr
        refine ⟨before, t'.takeWhile fun c => c ≠ '/' ∧ c ≠ '?' ∧ c ≠ '#', t'.dropWhile fun c => c ≠ '/' ∧ c ≠ '?' ∧ c ≠ '#',
          ?_, h2, h3, ?_, hn, ?_, ?_, ?_⟩
        · rw [List.append_assoc, List.takeWhile_append_dropWhile, hst]
          simp
        · intro c hc
          rw [List.all_eq_true] at h4
          exact (schemeChar_iff c).mp (h4 c hc)
        · intro c hc
          simpa using List.mem_takeWhile_imp hc
        · tauto
        · cases hd2 : t'.dropWhile fun c => decide (c ≠ '/' ∧ c ≠ '?' ∧ c ≠ '#') with
          | nil => exact Or.inl rfl
          | cons c t =>
            right
            have := List.head_dropWhile_not (fun c => decide (c ≠ '/' ∧ c ≠ '?' ∧ c ≠ '#')) (l := t') (by rw [hd2]; simp)
            simp only [hd2, List.head_cons] at this
            simp only [List.headD_cons]
            by_contra hne
            simp at this
            tauto
    · rw [if_neg hsl] at h
      cases h
  · rintro ⟨scheme, net, tail, rfl, h2, h3, h4, h5, h6, h7, h8⟩
    have hcol : ∀ c ∈ scheme, c ≠ ':' := by
      intro c hc hcc
      subst hcc
      have := h4 ':' hc
      revert this
      decide
    have hb : (scheme ++ [':', '/', '/'] ++ net ++ tail).takeWhile (· ≠ ':') = scheme := by
      rw [List.append_assoc, List.append_assoc]
      apply takeWhile_append_stop
      · intro c hc; simpa using hcol c hc
      · right; exact ⟨':', _, rfl, by simp⟩
    have hd : (scheme ++ [':', '/', '/'] ++ net ++ tail).drop (scheme.length + 1) = '/' :: '/' :: (net ++ tail) := by
      rw [List.append_assoc, List.append_assoc, List.drop_append]
      simp
    have hs : (scheme ≠ scheme ++ [':', '/', '/'] ++ net ++ tail ∧ scheme ≠ [] ∧ (scheme.headD ' ').isAlpha = true ∧
        scheme.all schemeChar = true) := by
      refine ⟨?_, h2, h3, ?_⟩
      · intro h
        have := congrArg List.length h
        simp at this
      · rw [List.all_eq_true]
        intro c hc
        exact (schemeChar_iff c).mpr (h4 c hc)
    have hn : (net ++ tail).takeWhile (fun c => decide (c ≠ '/' ∧ c ≠ '?' ∧ c ≠ '#')) = net := by
      apply takeWhile_append_stop
      · intro c hc; simpa using h6 c hc
      · cases tail with
        | nil => exact Or.inl rfl
        | cons c t =>
          right
          refine ⟨c, t, rfl, ?_⟩
          simp at h8
          rcases h8 with rfl | rfl | rfl <;> decide
    unfold isUrl
    simp only [hb]
    rw [if_pos hs, hd]
    simp only [List.take_succ_cons, List.take_zero, if_true, List.drop_succ_cons, List.drop_zero, hn]
    rw [if_neg (by tauto)]
    simp only [Except.ok.injEq, decide_eq_true_eq]
    exact ⟨hs, h5⟩

/-- **C147, metadata** goes through unchanged. -/
theorem C147_given (w : World) (m : AudioMetaData) : process w (.given m) = .ok m := rfl

/-- **C147, url**: an absolute url becomes a GET request of exactly that url, for all of its bytes. -/
theorem C147_url (w : World) (s : Text) (h : IsAbsoluteUrl s) :
    ∃ r, process w (.uri (.text s)) = .ok ⟨.request r, .none, .none, .none, .none, .none, []⟩ ∧
      r.method = ['G', 'E', 'T'] ∧ r.url = s ∧ sent r ['r', 'a', 'n', 'g', 'e'] = some ['b', 'y', 't', 'e', 's', '=', '0', '-'] ∧
      ∀ name ≠ ['r', 'a', 'n', 'g', 'e'], sent r name = none := by
  refine ⟨⟨mGet, s, [(hRange, vRange)]⟩, ?_, rfl, rfl, rfl, ?_⟩
  · simp [process, (C147_is_url s).mpr h, AudioMetaData.new]
  · intro name hname
    have : hRange.map Char.toLower = ['r', 'a', 'n', 'g', 'e'] := by decide
    simp [sent, this, Ne.symm hname]

/-- **C147, local file**: other text naming a file that exists gets the file's sample rate and number of channels. -/
theorem C147_local (w : World) (s : Text) (h : isUrl s = .ok false) (he : w.exist s) (hs : s ≠ []) (sr ch : Int)
    (hw : w.soundFile (.text s) = .ok (sr, ch)) :
    process w (.uri (.text s)) = .ok ⟨.text s, .int sr, .int ch, .none, .none, .none, []⟩ := by
  simp [process, h, he, fromFile, hw, AudioMetaData.new, hs]

/-- **C147, file objects**: in-memory files, zip members and files get their sample rate and number of channels. -/
theorem C147_file (w : World) (u : Uri) (hu : (∃ i, u = .bytesIO i) ∨ (∃ i, u = .zip i) ∨ ∃ i, u = .file i) :
    process w (.uri u) = match w.soundFile u with
      | .error e => .error e
      | .ok (sr, ch) => .ok ⟨u, .int sr, .int ch, .none, .none, .none, []⟩ := by
  rcases hu with ⟨i, rfl⟩ | ⟨i, rfl⟩ | ⟨i, rfl⟩ <;>
  · simp only [process, fromFile]
    split <;> simp [AudioMetaData.new, *]

/-- **C147, other text** is kept as it is, unless it is empty (ValueError). -/
theorem C147_other (w : World) (s : Text) (h : isUrl s = .ok false) (he : w.exist s = false) :
    process w (.uri (.text s)) = if s = [] then .error .valueError else .ok ⟨.text s, .none, .none, .none, .none, .none, []⟩ := by
  simp only [process, h, he]
  by_cases hs : s = [] <;> simp [AudioMetaData.new, hs]

/-- **C147, paths**: text that begins with a slash, or without a colon, is never taken for a url; and no text is when `//` does not follow its first
colon. -/
theorem C147_paths (s : Text) (h : s.head? = some '/' ∨ ':' ∉ s ∨ (∃ a b, s = a ++ ':' :: b ∧ ':' ∉ a ∧ b.take 2 ≠ ['/', '/'])) :
    isUrl s ≠ .ok true := by
  rw [Ne, C147_is_url]
  rintro ⟨scheme, net, tail, rfl, h2, h3, h4, -⟩
  have hcol : ':' ∉ scheme := by
    intro hc
    have := h4 ':' hc
    revert this
    decide
  rcases h with h | h | ⟨a, b, h, ha, hb⟩
  · cases scheme with
    | nil => exact h2 rfl
    | cons c t =>
      simp at h
      subst h
      simp only [List.headD_cons] at h3
      revert h3
      decide
  · simp at h
  · have e1 : a = scheme := by
      have t1 := takeWhile_append_stop (fun c => decide (c ≠ ':')) a (':' :: b) (by
        intro c hc; simp; rintro rfl; exact ha hc) (Or.inr ⟨':', b, rfl, by simp⟩)
      have t2 := takeWhile_append_stop (fun c => decide (c ≠ ':')) scheme (':' :: '/' :: '/' :: (net ++ tail)) (by
        intro c hc; simp; rintro rfl; exact hcol hc) (Or.inr ⟨':', _, rfl, by simp⟩)
      rw [← t1, ← t2, ← h]
      simp
    subst e1
    apply hb
    have : b = '/' :: '/' :: (net ++ tail) := by
      have h' : a ++ ':' :: b = a ++ ':' :: '/' :: '/' :: (net ++ tail) := by rw [← h]; simp
      simpa using List.append_cancel_left h'
    rw [this]
    simp

/-! ## C148: requests -/

theorem sent_append (r : Request) (p : Text × Text) (name : Text) :
    sent { r with headers := r.headers ++ [p] } name = if p.1.map Char.toLower = name then some p.2 else sent r name := by
  unfold sent
  rw [List.filter_append]
  by_cases h : p.1.map Char.toLower = name
  · simp [h]
  · simp [h]

/-- **C148**: a request keeps its method, its url and all its headers; one with a header `range` is not changed at all, any other asks for all
bytes in addition, and what is sent for other headers does not change. -/
theorem C148_request (w : World) (r : Request) :
    ∃ r', process w (.uri (.request r)) = .ok ⟨.request r', .none, .none, .none, .none, .none, []⟩ ∧
      r'.method = r.method ∧ r'.url = r.url ∧ (∀ p ∈ r.headers, p ∈ r'.headers) ∧
      (hrange ∈ r.headers.map Prod.fst → r' = r) ∧
      (hrange ∉ r.headers.map Prod.fst → sent r' hrange = some ['b', 'y', 't', 'e', 's', '=', '0', '-']) ∧
      ∀ name ≠ hrange, sent r' name = sent r name := by
  have hl : hrange.map Char.toLower = hrange := by decide
  by_cases h : hrange ∈ r.headers.map Prod.fst
  · refine ⟨r, by simp [process, AudioMetaData.new, h], rfl, rfl, fun p hp => hp, fun _ => rfl, fun h' => absurd h h', fun _ _ => rfl⟩
  · refine ⟨{ r with headers := r.headers ++ [(hrange, vRange)] }, by simp only [process, if_neg h, AudioMetaData.new]; simp, rfl, rfl,
      fun p hp => List.mem_append_left _ hp, fun h' => absurd h' h, fun _ => ?_, fun name hn => ?_⟩
    · rw [sent_append, if_pos hl]; rfl
    · rw [sent_append, if_neg (by rw [hl]; exact Ne.symm hn)]

/-- **C149**: a request for a part of the resource is turned into one for all of it when its header is spelled `Range`. -/
theorem C149_range_refuted (w : World) (url v : Text) :
    sent ⟨mGet, url, [(hRange, v)]⟩ hrange = some v ∧
    ∃ r', process w (.uri (.request ⟨mGet, url, [(hRange, v)]⟩)) = .ok ⟨.request r', .none, .none, .none, .none, .none, []⟩ ∧
      sent r' hrange = some ['b', 'y', 't', 'e', 's', '=', '0', '-'] := by
  constructor
  · have : hRange.map Char.toLower = hrange := by decide
    simp [sent, this]
  · obtain ⟨r', h1, -, -, -, -, h2, -⟩ := C148_request w ⟨mGet, url, [(hRange, v)]⟩
    exact ⟨r', h1, h2 (by simp [hRange, hrange])⟩

/-! ## C150: storing -/

def Storable : Attr → Prop
  | .opaque _ => False
  | _ => True

/-- **C150**: metadata is stored exactly when everything in it has a notation in JSON and its uri is not an open file; what is stored has
every attribute, the uri as its text: the url of a request, nothing for an in-memory file or a zip member. -/
theorem C150_encode (m : AudioMetaData) :
    ((∃ d, encode m = .ok d) ↔ (∀ i, m.uri ≠ .file i) ∧ Storable m.samplerate ∧ Storable m.channels ∧ Storable m.licensing ∧
      Storable m.description ∧ Storable m.tags ∧ ∀ p ∈ m.extra, Storable p.2) ∧
    (∀ e, encode m = .error e → e = .typeError) ∧
    ∀ d, encode m = .ok d →
      d.lookup "uri".toList = some (match m.uri with
        | .text s => .text s
        | .request r => .text r.url
        | _ => .none) ∧
      d.lookup "samplerate".toList = some m.samplerate ∧ d.lookup "channels".toList = some m.channels ∧ d.lookup "licensing".toList = some m.licensing ∧
      d.lookup "description".toList = some m.description ∧ d.lookup "tags".toList = some m.tags ∧
      (∀ k v, (k, v) ∈ m.extra → (k, v) ∈ d) ∧
      ∀ k, k ∉ ["uri".toList, "samplerate".toList, "channels".toList, "licensing".toList, "description".toList, "tags".toList] → d.lookup k = m.extra.lookup k := by
  rw [show "uri".toList = nUri by decide]
  rw [show "samplerate".toList = nSamplerate by decide]
  rw [show "channels".toList = nChannels by decide]
  rw [show "licensing".toList = nLicensing by decide]
  rw [show "description".toList = nDescription by decide]
  rw [show "tags".toList = nTags by decide]
  have hst : ∀ a : Attr, a.isOpaque = true ↔ ¬ Storable a := by intro a; cases a <;> simp [Storable, Attr.isOpaque]
  have huri : Storable (encodeUri m.uri) ↔ ∀ i, m.uri ≠ .file i := by
    cases m.uri <;> simp [encodeUri, Storable]
  refine ⟨?_, ?_, ?_⟩
  · unfold encode
    simp only []
    split
    · rename_i h
      constructor
      · rintro ⟨d, hd⟩; cases hd
      · rintro ⟨h1, h2, h3, h4, h5, h6, h7⟩
        rw [List.any_eq_true] at h
        obtain ⟨p, hp, hpo⟩ := h
        rw [hst] at hpo
        exfalso
        apply hpo
        rcases List.mem_append.mp hp with hp | hp
        · simp only [List.mem_cons, List.not_mem_nil, or_false] at hp
          rcases hp with rfl | rfl | rfl | rfl | rfl | rfl
          · exact huri.mpr h1
          all_goals assumption
        · exact h7 p hp
    · rename_i h
      refine iff_of_true ⟨_, rfl⟩ ?_
      rw [List.any_eq_true] at h
      have hall : ∀ p ∈ [(nUri, encodeUri m.uri), (nSamplerate, m.samplerate), (nChannels, m.channels), (nLicensing, m.licensing),
          (nDescription, m.description), (nTags, m.tags)] ++ m.extra, Storable p.2 := by
        intro p hp
        by_contra hc
        exact h ⟨p, hp, (hst p.2).mpr hc⟩
      exact ⟨huri.mp (hall (nUri, encodeUri m.uri) (by simp)), hall (nSamplerate, _) (by simp), hall (nChannels, _) (by simp), hall (nLicensing, _) (by simp),
        hall (nDescription, _) (by simp), hall (nTags, _) (by simp), fun p hp => hall p (List.mem_append_right _ hp)⟩
  · intro e he
    unfold encode at he
    simp only [] at he
    split at he
    · cases he; rfl
    · cases he
  · intro d hd
    unfold encode at hd
    simp only [] at hd
    split at hd
    · cases hd
    · rename_i h
      cases hd
      have hnf : ∀ i, m.uri ≠ .file i := by
        apply huri.mp
        by_contra hc
        exact h (List.any_eq_true.mpr ⟨(nUri, encodeUri m.uri), by simp, (hst _).mpr hc⟩)
      refine ⟨?_, ?_, ?_, ?_, ?_, ?_, ?_, ?_⟩
      · have : encodeUri m.uri = (match m.uri with
          | .text s => .text s
          | .request r => .text r.url
          | _ => .none) := by
          cases hu : m.uri <;> simp [encodeUri]
          exact hnf _ hu
        simp [List.lookup, this]
      · simp [List.lookup, nUri, nSamplerate]
      · simp [List.lookup, nUri, nSamplerate, nChannels]
      · simp [List.lookup, nUri, nSamplerate, nChannels, nLicensing]
      · simp [List.lookup, nUri, nSamplerate, nChannels, nLicensing, nDescription]
      · simp [List.lookup, nUri, nSamplerate, nChannels, nLicensing, nDescription, nTags]
      · intro k v hkv
        exact List.mem_append_right _ hkv
      · intro k hk
        simp only [List.mem_cons, List.not_mem_nil, or_false, not_or] at hk
        obtain ⟨k1, k2, k3, k4, k5, k6⟩ := hk
        have hb : ∀ {a : Text}, k ≠ a → (k == a) = false := fun h => by simpa using h
        simp only [List.cons_append, List.nil_append, List.lookup, hb k1, hb k2, hb k3, hb k4, hb k5, hb k6]

/-- **C150, sources**: what `MetaData` makes of any url, request, path, in-memory file or zip member can be stored. -/
theorem C150_sources (w : World) (u : Uri) (hu : ∀ i, u ≠ .file i) (m : AudioMetaData) (h : process w (.uri u) = .ok m) :
    ∃ d, encode m = .ok d := by
  have key : ∀ v a b m, (∀ i, v ≠ .file i) → Storable a → Storable b →
      AudioMetaData.new (some v) a b .none .none .none [] = .ok m → ∃ d, encode m = .ok d := by
    intro v a b m hv ha hb hm
    unfold AudioMetaData.new at hm
    simp only [] at hm
    split at hm
    · cases hm
    · simp only [List.map_nil, List.not_mem_nil, if_false, Except.ok.injEq] at hm
      subst hm
      exact (C150_encode _).1.mpr ⟨hv, ha, hb, trivial, trivial, trivial, by simp⟩
  have hff : ∀ u, (∀ i, u ≠ .file i) → ∀ m, fromFile w u = .ok m → ∃ d, encode m = .ok d := by
    intro u hu m h
    unfold fromFile at h
    split at h
    · cases h
    · exact key u _ _ m hu (by trivial) (by trivial) h
  cases u with
  | text s =>
    simp only [process] at h
    split at h
    · cases h
    · exact key _ .none .none m (by simp) trivial trivial h
    · split at h
      · exact hff _ (by simp) m h
      · exact key _ .none .none m (by simp) trivial trivial h
  | request r =>
    simp only [process] at h
    exact key _ .none .none m (by simp) trivial trivial h
  | bytesIO i => exact hff _ (by simp) m h
  | zip i => exact hff _ (by simp) m h
  | file i => exact absurd rfl (hu i)

/-- **C151**: metadata of an open file can be made but not stored. -/
theorem C151_file_refuted (w : World) (i : Nat) (sr ch : Int) (hw : w.soundFile (.file i) = .ok (sr, ch)) :
    ∃ m, process w (.uri (.file i)) = .ok m ∧ encode m = .error .typeError := by
  refine ⟨⟨.file i, .int sr, .int ch, .none, .none, .none, []⟩, ?_, ?_⟩
  · rw [C147_file w (.file i) (by simp), hw]
  · simp [encode, encodeUri, Attr.isOpaque]

/-! ## C152: construction and equality -/

/-- **C152, construction**: succeeds exactly with a uri that is not empty text and without a keyword `request`, and then every attribute is the
one given; `request` is the uri if that is a request, nothing otherwise. -/
theorem C152_new (uri : Option Uri) (sr ch li de ta : Attr) (extra : List (Text × Attr)) :
    (∀ m, AudioMetaData.new uri sr ch li de ta extra = .ok m ↔
      ∃ u, uri = some u ∧ u ≠ .text [] ∧ nRequest ∉ extra.map Prod.fst ∧ m = ⟨u, sr, ch, li, de, ta, extra⟩) ∧
    (uri = none ∨ uri = some (.text []) → AudioMetaData.new uri sr ch li de ta extra = .error .valueError) ∧
    ∀ m r, AudioMetaData.new uri sr ch li de ta extra = .ok m → (m.request = some r ↔ uri = some (.request r)) := by
  have h1 : ∀ m, AudioMetaData.new uri sr ch li de ta extra = .ok m ↔
      ∃ u, uri = some u ∧ u ≠ .text [] ∧ nRequest ∉ extra.map Prod.fst ∧ m = ⟨u, sr, ch, li, de, ta, extra⟩ := by
    intro m
    cases uri with
    | none => simp [AudioMetaData.new]
    | some u =>
      simp only [AudioMetaData.new]
      by_cases hu : u = .text []
      · simp [hu]
      · by_cases hr : nRequest ∈ extra.map Prod.fst
        · simp only [if_neg hu, if_pos hr]
          constructor
          · intro h; cases h
          · rintro ⟨_, -, -, h, -⟩; exact absurd hr h
        · simp only [if_neg hu, if_neg hr, Except.ok.injEq]
          constructor
          · intro h; exact ⟨u, rfl, hu, hr, h.symm⟩
          · rintro ⟨v, hv, -, -, rfl⟩; cases hv; rfl
  refine ⟨h1, ?_, ?_⟩
  · rintro (rfl | rfl) <;> simp [AudioMetaData.new]
  · intro m r hm
    obtain ⟨u, rfl, -, -, rfl⟩ := (h1 m).mp hm
    cases u <;> simp [AudioMetaData.request]

/-- **C152, equality** is reflexive, symmetric and transitive, and agrees with equality of the six attributes. -/
theorem C152_eq (a b c : AudioMetaData) :
    a.eq a = true ∧ a.eq b = b.eq a ∧ (a.eq b → b.eq c → a.eq c) ∧
    (a.eq b ↔ a.uri = b.uri ∧ a.samplerate = b.samplerate ∧ a.channels = b.channels ∧ a.licensing = b.licensing ∧
      a.description = b.description ∧ a.tags = b.tags) := by
  have h : ∀ a b : AudioMetaData, a.eq b ↔ a.uri = b.uri ∧ a.samplerate = b.samplerate ∧ a.channels = b.channels ∧ a.licensing = b.licensing ∧
      a.description = b.description ∧ a.tags = b.tags := by
    intro a b
    simp [AudioMetaData.eq, and_assoc]
  refine ⟨(h a a).mpr ⟨rfl, rfl, rfl, rfl, rfl, rfl⟩, ?_, ?_, h a b⟩
  · rw [Bool.eq_iff_iff, h, h]
    constructor <;> rintro ⟨h1, h2, h3, h4, h5, h6⟩ <;> exact ⟨h1.symm, h2.symm, h3.symm, h4.symm, h5.symm, h6.symm⟩
  · rw [h, h, h]
    rintro ⟨h1, h2, h3, h4, h5, h6⟩ ⟨g1, g2, g3, g4, g5, g6⟩
    exact ⟨h1.trans g1, h2.trans g2, h3.trans g3, h4.trans g4, h5.trans g5, h6.trans g6⟩

/-- **C153**: metadata that differs in other properties counts as equal. -/
theorem C153_extra_refuted (m : AudioMetaData) (k : Text) (v v' : Attr) (h : v ≠ v') :
    ({ m with extra := [(k, v)] } : AudioMetaData).eq { m with extra := [(k, v')] } = true ∧
    ({ m with extra := [(k, v)] } : AudioMetaData) ≠ { m with extra := [(k, v')] } := by
  refine ⟨by simp [AudioMetaData.eq], ?_⟩
  intro he
  rw [AudioMetaData.mk.injEq] at he
  simp at he
  exact h he

/-! ## the hypotheses are met -/

/-- C147: a url, and a path that is none. -/
example : isUrl ['h', 't', 't', 'p', ':', '/', '/', 'a', '/', 'b'] = .ok true ∧ isUrl ['/', 'a', '/', 'b'] = .ok false ∧
    isUrl ['C', ':', '\\', 'a'] = .ok false := by decide

/-- C147, C150, C151: a world with one file. -/
def demo : World := ⟨fun s => s = ['/', 'a'], fun _ => .ok (44100, 2)⟩
example : process demo (.uri (.text ['/', 'a'])) = .ok ⟨.text ['/', 'a'], .int 44100, .int 2, .none, .none, .none, []⟩ := by decide
example : (encode ⟨.bytesIO 3, .int 44100, .int 2, .none, .none, .none, [(['x'], .int 1)]⟩).toBool = true := by decide

example := C147_url demo ['h', 't', 't', 'p', ':', '/', '/', 'a', '/', 'b'] ⟨['h', 't', 't', 'p'], ['a'], ['/', 'b'], rfl, by decide, by decide, by decide, by decide, by decide, by decide, by decide⟩
example := C147_local demo ['/', 'a'] (by decide) (by decide) (by decide) 44100 2 rfl
example := C147_file demo (.zip 3) (Or.inr (Or.inl ⟨3, rfl⟩))
example := C147_other demo ['/', 'b'] (by decide) (by decide)
example := C147_paths ['/', 'b'] (Or.inl rfl)
example := C150_sources demo (.bytesIO 3) (fun i h => nomatch h) _ rfl

end Zounds.MetaData
