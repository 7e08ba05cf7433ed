import Verif.Model.Repl
import Verif.Props.WebApp
import Mathlib.Data.List.Basic
import Mathlib.Tactic.Ring
import Mathlib.Tactic.Linarith

/-!
# C167-C178: the web application's responses, the REPL and the feature parser
-/

namespace Zounds.Repl

/-! ## Specification -/

/-- An array that can be drawn: a line, a matrix, or an image with 3 or 4 channels. -/
def Drawable (ndim last : Nat) : Prop := ndim = 1 ∨ ndim = 2 ∨ ndim = 3 ∧ (last = 3 ∨ last = 4)

/-- The request asks for a range of seconds. -/
def AsksTime (range : Option Slce) : Prop := ∃ full, range = some (.time full)

/-- The stored features that can be fetched through their url. -/
def Servable (f : Feat) (range : Option Slce) : Prop :=
  f.kind = .oggVorbis ∨
  (f.kind = .arrayWithUnits ∧ AsksTime range ∧ f.timeFirst = true ∧ Drawable f.ndim f.last) ∨
  ((f.contentType = .json ∨ f.contentType = .ogg) ∧ ¬ AsksTime range)

variable {A : Type} (ap vp : List Char → List Char)

/-- The range of a request: absent, bytes or seconds. -/
theorem range_cases (range : Option Slce) (hr : range ≠ some .none) :
    range = none ∨ (∃ full, range = some (.bytes full)) ∨ ∃ full, range = some (.time full) := by
  match range with
  | none => exact .inl rfl
  | some .none => exact absurd rfl hr
  | some (.bytes f) => exact .inr (.inl ⟨f, rfl⟩)
  | some (.time f) => exact .inr (.inr ⟨f, rfl⟩)

/-- **C167, what can be fetched**: a request for a feature of a document is answered exactly if the feature is an ogg file, or an array over
time that can be drawn and a range of seconds was asked for, or stored as JSON (or as an ogg file) and no range of seconds was asked
for. Everything else is an error. -/
theorem C167_served_iff (doc : List Char) (f : Feat) (hf : f.kind = .oggVorbis → f.contentType = .ogg) (range : Option Slce)
    (hr : range ≠ some .none) :
    (∃ r : Response A, getFeature ap vp doc f range = .ok r) ↔ Servable f range := by
  obtain ⟨key, kind, ct, ndim, last, tf⟩ := f
  rcases range_cases range hr with rfl | ⟨full, rfl⟩ | ⟨full, rfl⟩ <;>
    cases kind <;> cases ct <;> cases tf <;> simp_all [getFeature, serialize, serializers, Ser.matches, Slce.isTime, Ser.serialize, Servable, AsksTime,
      generateImage, Drawable] <;> split <;> rename_i he <;> split at he <;> simp_all

/-- **C167, ogg files**: without a range, the stored file; with a range of bytes, that part of it; with a range of seconds, an excerpt. The
status says whether it is a part. -/
theorem C167_ogg (doc : List Char) (f : Feat) (hk : f.kind = .oggVorbis) (hc : f.contentType = .ogg) (full : Bool) :
    getFeature (A := A) ap vp doc f none = .ok ⟨.ogg, .stored doc f.key true, false⟩ ∧
    getFeature (A := A) ap vp doc f (some (.bytes full)) = .ok ⟨.ogg, .stored doc f.key full, !full⟩ ∧
    getFeature (A := A) ap vp doc f (some (.time full)) = .ok ⟨.ogg, .excerpt doc f.key full, !full⟩ := by
  obtain ⟨key, kind, ct, ndim, last, tf⟩ := f
  simp only at hk hc
  subst hk hc
  simp [getFeature, serialize, serializers, Ser.matches, Slce.isTime, Ser.serialize, Slce.isFull]

/-- **C167, JSON**: a feature stored as JSON is answered with its stored bytes. -/
theorem C167_json (doc : List Char) (f : Feat) (hc : f.contentType = .json) (hk : f.kind ≠ .oggVorbis) (full : Bool) :
    getFeature (A := A) ap vp doc f none = .ok ⟨.json, .stored doc f.key true, false⟩ ∧
    getFeature (A := A) ap vp doc f (some (.bytes full)) = .ok ⟨.json, .stored doc f.key full, !full⟩ := by
  obtain ⟨key, kind, ct, ndim, last, tf⟩ := f
  simp only at hc hk
  subst hc
  cases kind <;> simp_all [getFeature, serialize, serializers, Ser.matches, Slce.isTime, Ser.serialize]

/-- **C167, arrays**: a range of seconds of an array over time is answered with an image, as a part. -/
theorem C167_array (doc : List Char) (f : Feat) (hk : f.kind = .arrayWithUnits) (ht : f.timeFirst = true) (hd : Drawable f.ndim f.last)
    (full : Bool) : getFeature (A := A) ap vp doc f (some (.time full)) = .ok ⟨.png, .image f.ndim, true⟩ := by
  obtain ⟨key, kind, ct, ndim, last, tf⟩ := f
  simp only at hk ht hd
  subst hk ht
  simp only [getFeature, serialize, serializers, Ser.matches, Slce.isTime, Ser.serialize, generateImage, Option.getD_some]
  unfold Drawable at hd
  simp [hd]

/-- A document with an ogg file, its spectrogram, its onsets and the raw samples, as the library's documents have them. -/
def oggFeat : Feat := ⟨['o', 'g', 'g'], .oggVorbis, .ogg, 0, 0, false⟩
def fftFeat : Feat := ⟨['f', 'f', 't'], .arrayWithUnits, .octet, 2, 1025, true⟩
def onsetFeat : Feat := ⟨['o', 'n', 's', 'e', 't'], .timeSlice, .octet, 0, 0, false⟩
def rawFeat : Feat := ⟨['r', 'a', 'w'], .other, .octet, 1, 44100, true⟩

example : Servable oggFeat none ∧ Servable fftFeat (some (.time false)) ∧ ¬ Servable fftFeat none := by
  refine ⟨.inl rfl, .inr (.inl ⟨rfl, ⟨_, rfl⟩, rfl, .inr (.inl rfl)⟩), ?_⟩
  rintro (h | ⟨_, ⟨_, h⟩, _⟩ | ⟨h | h, _⟩) <;> cases h

/-- **C168, refuted**: no stored array feature can be fetched without a range of seconds, no feature of another class (the samples) can be fetched at
all, and no feature of time slices (the onsets) can be fetched at all: there is no serializer for it, or the one that there is
needs a value. -/
theorem C168_every_feature_refuted (doc : List Char) (f : Feat) (hc : f.contentType ≠ .json ∧ f.contentType ≠ .ogg) (range : Option Slce)
    (hr : range ≠ some .none) :
    (f.kind = .arrayWithUnits → ¬ AsksTime range → getFeature (A := A) ap vp doc f range = .error .noMatching) ∧
    (f.kind = .other → getFeature (A := A) ap vp doc f range = .error .noMatching) ∧
    (f.kind = .timeSlice → getFeature (A := A) ap vp doc f range = .error (.py .attributeError)) := by
  obtain ⟨key, kind, ct, ndim, last, tf⟩ := f
  obtain ⟨h1, h2⟩ := hc
  simp only at h1 h2
  rcases range_cases range hr with rfl | ⟨full, rfl⟩ | ⟨full, rfl⟩ <;> cases kind <;>
    simp [getFeature, serialize, serializers, Ser.matches, Slce.isTime, Ser.serialize, AsksTime, h1, h2]

example : getFeature (A := Nat) id id [] fftFeat none = .error .noMatching ∧
    getFeature (A := Nat) id id [] rawFeat (some (.time false)) = .error .noMatching ∧
    getFeature (A := Nat) id id [] onsetFeat none = .error (.py .attributeError) :=
  ⟨(C168_every_feature_refuted id id [] fftFeat (by decide) none (by decide)).1 rfl (by rintro ⟨_, h⟩; cases h),
   (C168_every_feature_refuted id id [] rawFeat (by decide) _ (by decide)).2.1 rfl,
   (C168_every_feature_refuted id id [] onsetFeat (by decide) _ (by decide)).2.2 rfl⟩

/-! ## Search results and onsets -/

theorem hit_ok (h : Hit) : (hitJson ap vp h).dumps = .ok (hitJson ap vp h) := by
  simp [hitJson, Json.dumps, Json.dumps.allObj]

theorem hits_ok (hits : List Hit) : Json.dumps.all (hits.map (hitJson ap vp)) = .ok () := by
  induction hits with
  | nil => simp [Json.dumps.all]
  | cons h hs ih => rw [List.map_cons, Json.dumps.all, hit_ok]; exact ih

/-- **C169, refuted**: the search page never gets its results: whatever was searched and found, also nothing, the answer is an error, because the query is put
into the JSON as bytes. -/
theorem C169_search_refuted (query : List UInt8) (hits : List Hit) :
    getSearch (A := A) ap vp query hits = .error (.py .typeError) := by
  simp only [getSearch, serialize, serializers, Ser.matches, Ser.serialize, List.find?, listing]
  rw [Json.dumps]
  have hq : (Json.bytes query).dumps = .error .typeError := by rw [Json.dumps]
  have ha : (Json.arr (hits.map (hitJson ap vp))).dumps = .ok (.arr (hits.map (hitJson ap vp))) := by rw [Json.dumps, hits_ok]
  simp only [Json.dumps.allObj, ha, hq]

/-- A time in seconds. -/
def InSeconds (ps : Int) (q : Rat) : Prop := q * 10 ^ 12 = ps

/-- **C178, onsets in the REPL**: a document's time slices are answered with one entry for every slice, in order, with the urls of the audio and the
visualization of the document and the slice's start and duration in seconds. -/
theorem C178_onsets (doc : List Char) (f : Feat) (hk : f.kind = .timeSlice) (hc : f.contentType ≠ .json ∧ f.contentType ≠ .ogg)
    (l : List (Int × Int)) :
    ∃ entries : List Json,
      serialize (A := A) ap vp ⟨some doc, some f, .bytes true, .slices l⟩ =
        .ok ⟨.onsets, .text (.obj [(['r', 'e', 's', 'u', 'l', 't', 's'], .arr entries)]), false⟩ ∧
      entries.length = l.length ∧
      ∀ (i : Nat) s d, l[i]? = some (s, d) → ∃ s' d', InSeconds s s' ∧ InSeconds d d' ∧
        entries[i]? = some (Json.obj [(['a', 'u', 'd', 'i', 'o'], .str (ap doc)), (['v', 'i', 's', 'u', 'a', 'l', 'i', 'z', 'a', 't', 'i', 'o', 'n'], .str (vp doc)),
          (['s', 'l', 'i', 'c', 'e'], .obj [(['s', 't', 'a', 'r', 't'], .num s'), (['d', 'u', 'r', 'a', 't', 'i', 'o', 'n'], .num d')])]) := by
  obtain ⟨key, kind, ct, ndim, last, tf⟩ := f
  obtain ⟨h1, h2⟩ := hc
  simp only at h1 h2 hk
  subst hk
  refine ⟨(l.map fun p => (⟨doc, p.1, p.2⟩ : Hit)).map (hitJson ap vp), ?_, by simp, ?_⟩
  · simp [serialize, serializers, Ser.matches, Slce.isTime, Ser.serialize, h1, h2, listing]
    rw [Json.dumps]
    simp only [Json.dumps.allObj]
    rw [Json.dumps]
    have := hits_ok ap vp (l.map fun p => (⟨doc, p.1, p.2⟩ : Hit))
    rw [List.map_map] at this
    rw [this]
  · intro i s d hi
    refine ⟨seconds s, seconds d, ?_, ?_, ?_⟩
    · unfold InSeconds seconds; norm_num
    · unfold InSeconds seconds; norm_num
    · simp [hi, hitJson]

/-- The text at a key of an entry. -/
def textAt (k : List Char) : Json → Option (List Char)
  | .obj l => match l.lookup k with
    | some (.str s) => some s
    | _ => none
  | _ => none

/-- **C178, the links lead to the document**: with the urls the application builds (the default base path), following the audio link or the
visualization link of any entry asks the feature handler for that very document, and for the configured feature. `utf8` are the bytes of the
identifier; feature names are plain identifiers. -/
theorem C178_links (utf8 : List Char → List UInt8) (audio vis : List Char) (ha : audio ≠ [] ∧ audio.getLast? ≠ some '/')
    (hv : vis ≠ [] ∧ vis.getLast? ≠ some '/')
    (doc : List Char) (hid : utf8 doc ≠ []) (f : Feat) (hk : f.kind = .timeSlice) (hc : f.contentType ≠ .json ∧ f.contentType ≠ .ogg)
    (l : List (Int × Int)) :
    ∃ entries : List Json,
      serialize (A := A) (fun d => Web.featurePath Web.zoundsText (utf8 d) audio) (fun d => Web.featurePath Web.zoundsText (utf8 d) vis)
          ⟨some doc, some f, .bytes true, .slices l⟩ =
        .ok ⟨.onsets, .text (.obj [(['r', 'e', 's', 'u', 'l', 't', 's'], .arr entries)]), false⟩ ∧
      entries.length = l.length ∧
      ∀ e ∈ entries, ∃ p q, textAt ['a', 'u', 'd', 'i', 'o'] e = some p ∧
        textAt ['v', 'i', 's', 'u', 'a', 'l', 'i', 'z', 'a', 't', 'i', 'o', 'n'] e = some q ∧
        Web.featureArgs p = some (utf8 doc, Web.unquote audio) ∧ Web.featureArgs q = some (utf8 doc, Web.unquote vis) := by
  obtain ⟨entries, h1, h2, h3⟩ := C178_onsets (A := A) (fun d => Web.featurePath Web.zoundsText (utf8 d) audio)
    (fun d => Web.featurePath Web.zoundsText (utf8 d) vis) doc f hk hc l
  refine ⟨entries, h1, h2, fun e he => ?_⟩
  obtain ⟨i, hi⟩ := List.mem_iff_getElem?.1 he
  have hlt : i < l.length := by
    rw [← h2]; exact (List.getElem?_eq_some_iff.1 hi).1
  obtain ⟨s', d', -, -, h⟩ := h3 i l[i].1 l[i].2 (by rw [List.getElem?_eq_getElem hlt])
  rw [hi, Option.some.injEq] at h
  subst h
  exact ⟨_, _, rfl, rfl, (Web.C51_roundtrip _ audio hid ha.1 ha.2).2, (Web.C51_roundtrip _ vis hid hv.1 hv.2).2⟩

/-- The document `a/b`: its url is `/zounds/a%2Fb/ogg`, which comes back as `a/b`. -/
example : ∃ entries : List Json,
    serialize (A := Nat) (fun d => Web.featurePath Web.zoundsText (d.map fun c => UInt8.ofNat c.toNat) ['o', 'g', 'g'])
        (fun d => Web.featurePath Web.zoundsText (d.map fun c => UInt8.ofNat c.toNat) ['f', 'f', 't'])
        ⟨some ['a', '/', 'b'], some ⟨['s'], .timeSlice, .onsets, 1, 1, true⟩, .bytes true, .slices [(0, 5)]⟩ =
      .ok ⟨.onsets, .text (.obj [(['r', 'e', 's', 'u', 'l', 't', 's'], .arr entries)]), false⟩ ∧ entries.length = 1 := by
  obtain ⟨e, h1, h2, -⟩ := C178_links (A := Nat) (fun d => d.map fun c => UInt8.ofNat c.toNat) ['o', 'g', 'g'] ['f', 'f', 't'] (by simp) (by simp)
    ['a', '/', 'b'] (by simp) ⟨['s'], .timeSlice, .onsets, 1, 1, true⟩ rfl (by simp) [(0, 5)]
  exact ⟨e, h1, h2⟩

/-! ## Audio -/

theorem pieces_flatten (rate : Nat) (hr : 0 < rate) : ∀ (n : Nat) (x : List A), x.length ≤ n * rate →
    ((List.range n).map fun i => (x.drop (i * rate)).take rate).flatten = x
  | 0, x, h => by
    have : x = [] := by apply List.eq_nil_of_length_eq_zero; omega
    simp [this]
  | n + 1, x, h => by
    rw [List.range_succ_eq_map, List.map_cons, List.flatten_cons, List.map_map]
    have e : ((List.range n).map ((fun i => (x.drop (i * rate)).take rate) ∘ Nat.succ)) =
        (List.range n).map fun i => ((x.drop rate).drop (i * rate)).take rate := by
      apply List.map_congr_left
      intro i _
      simp only [Function.comp, List.drop_drop, Nat.succ_mul]
      congr 2
      omega
    rw [e, pieces_flatten rate hr n (x.drop rate) (by rw [List.length_drop]; rw [Nat.succ_mul] at h; omega)]
    simp

/-- **C170, audio in the REPL**: audio samples are answered with an ogg file into which every sample was written once, in order: in runs of one second, of which
only the last can be shorter, and none is empty. -/
theorem C170_audio (c : Ctx A) (rate : Nat) (x : List A) (hv : c.value = .audio rate x) (hr : 0 < rate) :
    ∃ writes, serialize ap vp c = .ok ⟨.ogg, .encoded rate writes, false⟩ ∧ writes.flatten = x ∧
      (∀ i w, writes[i]? = some w → w ≠ [] ∧ w.length ≤ rate ∧ (i + 1 < writes.length → w.length = rate)) := by
  obtain ⟨doc, feature, slce, value⟩ := c
  simp only at hv
  subst hv
  have hm : ∀ i, i < (x.length + rate - 1) / rate → i * rate < x.length := by
    intro i hi
    have h1 : (i + 1) * rate ≤ x.length + rate - 1 := by
      calc (i + 1) * rate ≤ (x.length + rate - 1) / rate * rate := Nat.mul_le_mul_right _ hi
        _ ≤ _ := Nat.div_mul_le_self _ _
    rw [Nat.succ_mul] at h1
    omega
  refine ⟨(List.range ((x.length + rate - 1) / rate)).map fun i => (x.drop (i * rate)).take rate, ?_, ?_, ?_⟩
  · simp [serialize, serializers, Ser.matches, Ser.serialize, audioWrites, Nat.pos_iff_ne_zero.1 hr]
  · apply pieces_flatten rate hr
    have := Nat.lt_div_mul_add (a := x.length + rate - 1) hr
    omega
  · intro i w hw
    rw [List.getElem?_map] at hw
    simp only [List.length_map, List.length_range]
    by_cases hi : i < (x.length + rate - 1) / rate
    · rw [List.getElem?_range hi, Option.map_some, Option.some.injEq] at hw
      subst hw
      have := hm i hi
      refine ⟨?_, by simp, ?_⟩
      · rw [ne_eq, ← List.length_eq_zero_iff, List.length_take, List.length_drop]; omega
      · intro h
        have h2 := hm (i + 1) h
        rw [Nat.succ_mul] at h2
        rw [List.length_take, List.length_drop]; omega
    · rw [List.getElem?_eq_none (by simpa using hi)] at hw
      cases hw

example : serialize id id ⟨none, none, .none, Value.audio 2 [10, 20, 30, 40, 50]⟩ =
    .ok ⟨.ogg, .encoded 2 [[10, 20], [30, 40], [50]], false⟩ := rfl

/-! ## Feature parser -/

section Parser
variable {D : Type}

/-- **C176, feature expressions**: a fresh parser gives a document and a feature for an expression exactly when the expression is a name bound to a document,
a dot and the name of a feature; for every other expression it gives neither. -/
theorem C176_parser (fs : List Char → Option Feat) (docs : List Char → Option D) (e : Expr) (hne : ∀ inner, e ≠ .attr inner [])
    (d : D) (f : Feat) :
    ((parseFeature ⟨some fs, docs⟩ ⟨none, none⟩ [.expr e]).2 = (some d, some f) ↔
      ∃ id a, e = .attr (.name id) a ∧ docs id = some d ∧ fs a = some f) ∧
    ((parseFeature ⟨some fs, docs⟩ ⟨none, none⟩ [.expr e]).2 = (none, none) ↔
      ¬ ∃ id a d f, e = .attr (.name id) a ∧ docs id = some d ∧ fs a = some f) := by
  cases e with
  | name id => simp [parseFeature, visitStmts, visitStmt, visitExpr, Visitor.result]
  | other => simp [parseFeature, visitStmts, visitStmt, visitExpr, Visitor.result]
  | attr inner a =>
    have ha : a ≠ [] := fun h => hne inner (by rw [h])
    cases inner with
    | name id =>
      cases hfa : fs a with
      | none => simp [parseFeature, visitStmts, visitStmt, visitExpr, Visitor.result, hfa]
      | some g =>
        cases hd : docs id with
        | none => simp [parseFeature, visitStmts, visitStmt, visitExpr, Visitor.result, hfa, hd]
        | some d' =>
          simp [parseFeature, visitStmts, visitStmt, visitExpr, Visitor.result, hfa, hd, ha]
    | other => cases hfa : fs a <;> simp [parseFeature, visitStmts, visitStmt, visitExpr, Visitor.result, hfa]
    | attr _ _ => cases hfa : fs a <;> simp [parseFeature, visitStmts, visitStmt, visitExpr, Visitor.result, hfa]

mutual
/-- The expression statements of a statement, in the order of the text. -/
def exprsOf : Stmt → List Expr
  | .expr e => [e]
  | .compound body => exprsAll body
/-- The expression statements of statements. -/
def exprsAll : List Stmt → List Expr
  | [] => []
  | s :: ss => exprsOf s ++ exprsAll ss
end

/-- The document and the feature that a feature expression names. -/
def featureOf (fs : List Char → Option Feat) (docs : List Char → Option D) : Expr → Option (D × Feat)
  | .attr (.name id) a => (docs id).bind fun d => (fs a).map fun f => (d, f)
  | _ => none

/-- Visiting expressions one after the other until one raises. -/
def visitAll (env : Env D) (v : Visitor D) : List Expr → Visitor D × Bool
  | [] => (v, true)
  | e :: es => match visitExpr env e with
    | none => (v, false)
    | some v' => visitAll env v' es

theorem visitAll_append (env : Env D) (a b : List Expr) : ∀ v, visitAll env v (a ++ b) =
    if (visitAll env v a).2 then visitAll env (visitAll env v a).1 b else visitAll env v a := by
  induction a with
  | nil => intro v; simp [visitAll]
  | cons e es ih =>
    intro v
    cases h : visitExpr env e with
    | none => simp [List.cons_append, visitAll, h]
    | some v' => simpa only [List.cons_append, visitAll, h] using ih v'

theorem takeWhile_mem {α : Type} (p : α → Bool) (l : List α) : ∀ x ∈ l.takeWhile p, p x = true := by
  induction l with
  | nil => intro x hx; simp at hx
  | cons a l ih =>
    intro x hx
    by_cases ha : p a = true
    · rw [List.takeWhile_cons_of_pos ha] at hx
      rcases List.mem_cons.1 hx with rfl | h
      · exact ha
      · exact ih x h
    · rw [List.takeWhile_cons_of_neg ha] at hx; simp at hx

mutual
theorem visitStmt_all (env : Env D) : ∀ (s : Stmt) (v : Visitor D), visitStmt env v s = visitAll env v (exprsOf s)
  | .expr e, v => by
    simp only [visitStmt, exprsOf, visitAll]
    cases visitExpr env e <;> rfl
  | .compound body, v => by
    simp only [visitStmt, exprsOf]
    exact visitStmts_all env body v
theorem visitStmts_all (env : Env D) : ∀ (ss : List Stmt) (v : Visitor D), visitStmts env v ss = visitAll env v (exprsAll ss)
  | [], v => by simp [visitStmts, exprsAll, visitAll]
  | s :: ss, v => by
    simp only [visitStmts, exprsAll, visitAll_append]
    rw [visitStmt_all env s v]
    cases h : visitAll env v (exprsOf s) with
    | mk v' b =>
      cases b with
      | false => simp
      | true => simp [visitStmts_all env ss v']
end

theorem visitExpr_feature (fs : List Char → Option Feat) (docs : List Char → Option D) (e : Expr) :
    (visitExpr ⟨some fs, docs⟩ e = none ∧ featureOf fs docs e = none) ∨
    ∃ id a d f, e = .attr (.name id) a ∧ docs id = some d ∧ fs a = some f ∧ visitExpr ⟨some fs, docs⟩ e = some ⟨some d, some a⟩ ∧ featureOf fs docs e = some (d, f) := by
  cases e with
  | name _ => exact Or.inl ⟨rfl, rfl⟩
  | other => exact Or.inl ⟨rfl, rfl⟩
  | attr inner a =>
    cases inner with
    | other => left; cases h : fs a <;> simp [visitExpr, featureOf, h]
    | attr _ _ => left; cases h : fs a <;> simp [visitExpr, featureOf, h]
    | name id =>
      cases hf : fs a with
      | none => left; cases hd : docs id <;> simp [visitExpr, featureOf, hf, hd]
      | some f =>
        cases hd : docs id with
        | none => left; simp [visitExpr, featureOf, hf, hd]
        | some d => exact Or.inr ⟨id, a, d, f, rfl, hd, hf, by simp [visitExpr, hf, hd], by simp [featureOf, hf, hd]⟩

/-- **C176, several statements**: of a text with several statements the parser gives the last feature expression before the first expression statement that is none, also
within compound statements; nothing if there is none. -/
theorem C176_module (fs : List Char → Option Feat) (docs : List Char → Option D) (hfs : fs [] = none) (m : List Stmt) :
    let found := (((exprsAll m).takeWhile fun e => (featureOf fs docs e).isSome).getLast?).bind (featureOf fs docs)
    (parseFeature ⟨some fs, docs⟩ ⟨none, none⟩ m).2 = (found.map Prod.fst, found.map Prod.snd) := by
  have key : ∀ (es : List Expr) (v : Visitor D), (visitAll ⟨some fs, docs⟩ v es).1.result ⟨some fs, docs⟩ =
      match ((es.takeWhile fun e => (featureOf fs docs e).isSome).getLast?).bind (featureOf fs docs) with
      | none => v.result ⟨some fs, docs⟩
      | some (d, f) => (some d, some f) := by
    intro es
    induction es with
    | nil => intro v; rfl
    | cons e es ih =>
      intro v
      rcases visitExpr_feature fs docs e with ⟨h1, h2⟩ | ⟨id, a, d, f, rfl, hd, hf, h1, h2⟩
      · simp [visitAll, h1, h2]
      · simp only [visitAll, h1]
        rw [ih]
        have ha : a ≠ [] := by rintro rfl; rw [hfs] at hf; cases hf
        have hsome : (featureOf fs docs (.attr (.name id) a)).isSome = true := by rw [h2]; rfl
        rw [List.takeWhile_cons_of_pos (by exact hsome)]
        have hall : ∀ x ∈ es.takeWhile (fun e => (featureOf fs docs e).isSome), (featureOf fs docs x).isSome = true := fun x hx => takeWhile_mem (fun e => (featureOf fs docs e).isSome) es x hx
        cases hl : es.takeWhile (fun e => (featureOf fs docs e).isSome) with
        | nil => simp [h2, Visitor.result, ha, hf]
        | cons x xs =>
          rw [List.getLast?_cons_cons]
          have hne : ∃ y, (x :: xs).getLast? = some y := ⟨_, List.getLast?_eq_some_getLast (by simp)⟩
          obtain ⟨y, hy⟩ := hne
          rw [hy]
          have hy2 := hall y (by rw [hl]; exact List.mem_of_getLast? hy)
          obtain ⟨p, hp⟩ := Option.isSome_iff_exists.1 hy2
          simp [hp]
  simp only []
  have : (parseFeature (⟨some fs, docs⟩ : Env D) ⟨none, none⟩ m).2 = (visitAll ⟨some fs, docs⟩ ⟨none, none⟩ (exprsAll m)).1.result ⟨some fs, docs⟩ := by
    unfold parseFeature
    rw [visitStmts_all]
  rw [this, key]
  cases ((exprsAll m).takeWhile fun e => (featureOf fs docs e).isSome).getLast?.bind (featureOf fs docs) with
  | none => rfl
  | some p => rfl

/-- **C176, no document class**: without a document class nothing is a feature expression. -/
theorem C176_no_model (docs : List Char → Option D) (e : Expr) :
    (parseFeature ⟨none, docs⟩ ⟨none, none⟩ [.expr e]).2 = (none, none) := by
  simp [parseFeature, visitStmts, visitStmt, visitExpr, Visitor.result]

/-- **C177, refuted**: a parser that is used again gives the document and the feature of an earlier statement for every expression that is not a
feature expression. -/
theorem C177_reuse_refuted (fs : List Char → Option Feat) (docs : List Char → Option D) (id a : List Char) (d : D) (f : Feat)
    (hd : docs id = some d) (hf : fs a = some f) (ha : a ≠ []) (e : Expr)
    (he : ¬ ∃ id a d f, e = .attr (.name id) a ∧ docs id = some d ∧ fs a = some f) :
    let first := parseFeature ⟨some fs, docs⟩ ⟨none, none⟩ [.expr (.attr (.name id) a)]
    (parseFeature ⟨some fs, docs⟩ first.1 [.expr e]).2 = (some d, some f) := by
  have h1 : (parseFeature (⟨some fs, docs⟩ : Env D) ⟨none, none⟩ [.expr (.attr (.name id) a)]).1 = ⟨some d, some a⟩ := by
    simp [parseFeature, visitStmts, visitStmt, visitExpr, hd, hf]
  simp only [h1]
  have h2 : visitExpr (⟨some fs, docs⟩ : Env D) e = none := by
    cases e with
    | name _ => rfl
    | other => rfl
    | attr inner b =>
      cases inner with
      | name i =>
        cases hfb : fs b with
        | none => simp [visitExpr, hfb]
        | some g => cases hdi : docs i with
          | none => simp [visitExpr, hfb, hdi]
          | some d' => exact absurd ⟨i, b, d', g, rfl, hdi, hfb⟩ he
      | other => cases hfb : fs b <;> simp [visitExpr, hfb]
      | attr _ _ => cases hfb : fs b <;> simp [visitExpr, hfb]
  simp [parseFeature, visitStmts, visitStmt, h2, Visitor.result, ha, hf]

end Parser

/-! ## The REPL -/

section ReplProps
variable {S Code V : Type} (P : Python S Code V A) (ser : Ctx A → Except SerErr (Response A))

/-- The module consists of the one expression that `eval` evaluates. -/
def OneExpr (m : List Stmt) (e : Expr) : Prop := m = [.expr e]

/-- **C172, stdout**: whatever the statement does, also to `sys.stdout`, `sys.stdout` is afterwards what it was before. -/
theorem C172_stdout (sio : Nat) (code : Code) (u : Nat) (w : World S A) : (post P ser sio code u w).1.stdout = w.stdout := rfl

/-- **C172, expressions**: an expression that evaluates and parses is evaluated exactly once, the answer contains the text of its value, and what becomes
of the value is decided by the serializers, given the document and the feature if the statement is a feature expression: no
serializer, just the text; a failing serializer, the text and an error; a serialized value, a new url under which it can be fetched, with its content type. -/
theorem C172_expression (sio : Nat) (code : Code) (u : Nat) (w : World S A) (vars : S) (printed : List Char) (so : Option Nat) (v : V)
    (m : List Stmt) (hev : P.eval code w.vars = (vars, printed, so, .value v)) (hp : P.parse code = some m) :
    let ctx : Ctx A := ⟨((parseFeature (P.env vars) ⟨none, none⟩ m).2).1, ((parseFeature (P.env vars) ⟨none, none⟩ m).2).2, .bytes true, P.value v⟩
    (post P ser sio code u w).1.vars = vars ∧ (post P ser sio code u w).2.result = some (P.str v) ∧
    (ser ctx = .error .noMatching → (post P ser sio code u w).2 = ⟨true, some (P.str v), none, none, false⟩ ∧
      (post P ser sio code u w).1.temp = w.temp) ∧
    (∀ e, ser ctx = .error (.py e) → (post P ser sio code u w).2 = ⟨false, some (P.str v), none, none, true⟩ ∧
      (post P ser sio code u w).1.temp = w.temp) ∧
    (∀ r, ser ctx = .ok r → (post P ser sio code u w).2 = ⟨true, some (P.str v), some u, some r.contentType, false⟩ ∧
      getTemp (post P ser sio code u w).1 u = some r) := by
  simp only [post, postBody, hev, hp, addUrl]
  refine ⟨?_, ?_, ?_, ?_, ?_⟩
  · split <;> rfl
  · split <;> rfl
  · intro h; simp [h]
  · intro e h; simp [h]
  · intro r h; simp [h, getTemp]

/-- **C172, statements**: something that is not an expression is executed exactly once, after nothing else ran, and the answer is what it printed. -/
theorem C172_statement (sio : Nat) (code : Code) (u : Nat) (w : World S A) (so so' : Option Nat) (vars : S) (printed : List Char) (ok : Bool)
    (hev : P.eval code w.vars = (w.vars, [], so, .syntaxError)) (hex : P.exec code w.vars = (vars, printed, so', ok)) :
    (post P ser sio code u w).1 = { w with vars := vars } ∧
    (post P ser sio code u w).2 = if ok then ⟨true, some printed, none, none, false⟩ else ⟨false, none, none, none, true⟩ := by
  cases ok <;> simp [post, postBody, runExec, hev, hex]

/-- **C172, expressions that do not parse as a module** (such as indented ones, which `eval` accepts): evaluated, then executed; the answer is what both printed, or, if the execution raises, the
text of the value and an error. -/
theorem C172_unparsed (sio : Nat) (code : Code) (u : Nat) (w : World S A) (vars vars' : S) (printed printed' : List Char) (so so' : Option Nat) (v : V) (ok : Bool)
    (hev : P.eval code w.vars = (vars, printed, so, .value v)) (hp : P.parse code = none) (hex : P.exec code vars = (vars', printed', so', ok)) :
    (post P ser sio code u w).1 = { w with vars := vars' } ∧
    (post P ser sio code u w).2 = if ok then ⟨true, some (printed ++ printed'), none, none, false⟩ else ⟨false, some (P.str v), none, none, true⟩ := by
  cases ok <;> simp [post, postBody, runExec, hev, hp, hex]

/-- **C172, failures**: an expression that raises (something else than a SyntaxError) is evaluated once and answered with an error. -/
theorem C172_raised (sio : Nat) (code : Code) (u : Nat) (w : World S A) (vars : S) (printed : List Char) (so : Option Nat)
    (hev : P.eval code w.vars = (vars, printed, so, .raised)) :
    post P ser sio code u w = ({ w with vars := vars }, ⟨false, none, none, none, true⟩) := by
  simp [post, postBody, hev]

/-- The requests to the REPL, one after the other: code and the uuid drawn. -/
def posts (sio : Nat) : World S A → List (Code × Nat) → World S A
  | w, [] => w
  | w, (c, u) :: h => posts sio (post P ser sio c u w).1 h

/-- The temporary results only grow, by the uuid of the request. -/
theorem post_temp (sio : Nat) (code : Code) (u : Nat) (w : World S A) :
    ((post P ser sio code u w).2.url = none ∧ (post P ser sio code u w).1.temp = w.temp) ∨
    ∃ r, (post P ser sio code u w).2.url = some u ∧ (post P ser sio code u w).2.contentType = some r.contentType ∧
      (post P ser sio code u w).1.temp = (u, r) :: w.temp := by
  have hx : ∀ (w' : World S A) b r, ((runExec P code w' b r).2.url = none ∧ (runExec P code w' b r).1.temp = w'.temp) := by
    intro w' b r
    unfold runExec
    split <;> exact ⟨rfl, rfl⟩
  unfold post postBody
  rcases he : P.eval code w.vars with ⟨vars, printed, so, ended⟩
  cases ended with
  | raised => left; simp [he]
  | syntaxError =>
    left
    simp only [he]
    exact hx _ _ _
  | value v =>
    simp only [he]
    cases hp : P.parse code with
    | none => left; exact hx _ _ _
    | some m =>
      simp only [addUrl]
      split
      · left; simp
      · left; simp
      · rename_i r _; right; exact ⟨r, by simp⟩

theorem posts_lookup (sio : Nat) (id : Nat) : ∀ (h : List (Code × Nat)) (w : World S A), id ∉ h.map Prod.snd →
    getTemp (posts P ser sio w h) id = getTemp w id
  | [], _, _ => rfl
  | (c, u) :: h, w, hid => by
    simp only [List.map_cons, List.mem_cons, not_or] at hid
    rw [posts, posts_lookup sio id h _ hid.2]
    unfold getTemp
    rcases post_temp P ser sio c u w with ⟨_, h2⟩ | ⟨r, _, _, h2⟩
    · rw [h2]
    · rw [h2, List.lookup_cons]
      have : (id == u) = false := by simpa using hid.1
      rw [this]

/-- **C171, temporary urls**: when a request's answer contains a url, then the url gives a result of the announced content type, and it
keeps giving that very result whatever requests follow, as long as the same uuid is not drawn again. -/
theorem C171_stable (sio : Nat) (w : World S A) (before after : List (Code × Nat)) (code : Code) (u url : Nat) (hu : u ∉ after.map Prod.snd)
    (hurl : (post P ser sio code u (posts P ser sio w before)).2.url = some url) :
    ∃ r, (post P ser sio code u (posts P ser sio w before)).2.contentType = some r.contentType ∧
      ∀ later, later <+: after → getTemp (posts P ser sio (posts P ser sio w (before ++ [(code, u)])) later) url = some r := by
  have happ : ∀ (b : List (Code × Nat)) (w : World S A), posts P ser sio w (b ++ [(code, u)]) = (post P ser sio code u (posts P ser sio w b)).1 := by
    intro b
    induction b with
    | nil => intro w; rfl
    | cons x b ih => intro w; obtain ⟨c, n⟩ := x; exact ih _
  rcases post_temp P ser sio code u (posts P ser sio w before) with ⟨h1, _⟩ | ⟨r, h1, h2, h3⟩
  · rw [h1] at hurl; cases hurl
  · rw [h1] at hurl
    cases hurl
    refine ⟨r, h2, ?_⟩
    rintro later ⟨rest, rfl⟩
    rw [posts_lookup P ser sio u later _ (fun hm => hu (by rw [List.map_append, List.mem_append]; exact .inl hm)), happ]
    unfold getTemp
    rw [h3]
    simp

/-- **C171, unknown urls**: an application that has just been started answers not found to every url that no answer contained. -/
theorem C171_not_found (sio : Nat) (w : World S A) (hw : w.temp = []) (h : List (Code × Nat)) (url : Nat)
    (hno : ∀ b c u a, h = b ++ (c, u) :: a → (post P ser sio c u (posts P ser sio w b)).2.url ≠ some url) :
    getTemp (posts P ser sio w h) url = none := by
  have key : ∀ (h : List (Code × Nat)) (w : World S A), getTemp w url = none →
      (∀ b c u a, h = b ++ (c, u) :: a → (post P ser sio c u (posts P ser sio w b)).2.url ≠ some url) →
      getTemp (posts P ser sio w h) url = none := by
    intro h
    induction h with
    | nil => intro w hw _; exact hw
    | cons x h ih =>
      obtain ⟨c, u⟩ := x
      intro w hw hno
      apply ih
      · have h0 := hno [] c u h rfl
        simp only [posts] at h0
        rcases post_temp P ser sio c u w with ⟨_, h2⟩ | ⟨r, h1, _, h2⟩
        · unfold getTemp at hw ⊢; rw [h2]; exact hw
        · unfold getTemp at hw ⊢
          rw [h2, List.lookup_cons]
          have : (url == u) = false := by
            rw [h1] at h0
            simpa using fun h : url = u => h0 (by rw [h])
          rw [this]; exact hw
      · intro b c' u' a hh
        exact hno ((c, u) :: b) c' u' a (by rw [hh]; rfl)
  exact key h w (by unfold getTemp; rw [hw]; rfl) hno

/-- Executing an expression has the same effect on the variables as evaluating it. -/
def SameEffect (code : Code) : Prop := ∀ s, (P.exec code s).1 = (P.eval code s).1

/-- **C173, refuted**: an expression during whose evaluation a SyntaxError is raised (it calls `eval` on bad text, say) is run a second time; and so is one
that `eval` accepts and `ast.parse` does not (with blanks in front). Whatever it does to the variables, it does twice. -/
theorem C173_once_refuted (sio : Nat) (code : Code) (u : Nat) (w : World S A) (hs : SameEffect P code) (vars : S) (printed : List Char)
    (so : Option Nat) (ended : Ended V) (hev : P.eval code w.vars = (vars, printed, so, ended))
    (h : (∃ v, ended = .value v ∧ P.parse code = none) ∨ ended = .syntaxError) :
    (post P ser sio code u w).1.vars = (P.eval code (P.eval code w.vars).1).1 := by
  have hx : ∀ (w' : World S A) b r, (runExec P code w' b r).1.vars = (P.exec code w'.vars).1 := by
    intro w' b r
    unfold runExec
    split <;> rename_i he <;> rw [he]
  rcases h with ⟨v, rfl, hp⟩ | rfl
  · simp only [post, postBody, hev, hp, hx]
    exact hs _
  · simp only [post, postBody, hev, hx]
    exact hs _

/-- **C174, refuted**: what an expression prints is lost: the answer to an expression is the text of its value, whatever was printed. -/
theorem C174_printed_refuted (sio : Nat) (code : Code) (u : Nat) (w : World S A) (vars : S) (printed : List Char) (so : Option Nat) (v : V)
    (m : List Stmt) (hev : P.eval code w.vars = (vars, printed, so, .value v)) (hp : P.parse code = some m)
    (hpr : ¬ printed <:+: P.str v) : ∀ t, (post P ser sio code u w).2.result = some t → ¬ printed <:+: t := by
  intro t ht
  rw [(C172_expression P ser sio code u w vars printed so v m hev hp).2.1] at ht
  cases ht
  exact hpr

/-- **C175, refuted**: an expression that evaluates to a three-dimensional array that is not an image is answered with an error (status 400), though it was evaluated and
the answer holds its text. -/
theorem C175_evaluates_refuted (sio : Nat) (code : Code) (u : Nat) (w : World S A) (vars : S) (printed : List Char) (so : Option Nat) (v : V)
    (e : Expr) (hev : P.eval code w.vars = (vars, printed, so, .value v)) (hp : P.parse code = some [.expr e]) (last : Nat)
    (hv : P.value v = .array 3 last) (hl : last ≠ 3 ∧ last ≠ 4) (he : ∀ inner a, e ≠ .attr inner a) :
    post P (serialize ap vp) sio code u w = ({ w with vars := vars }, ⟨false, some (P.str v), none, none, true⟩) := by
  have hpf : (parseFeature (P.env vars) ⟨none, none⟩ [.expr e]).2 = (none, none) := by
    cases e with
    | attr i a => exact absurd rfl (he i a)
    | name _ => cases hf : (P.env vars).features <;> simp [parseFeature, visitStmts, visitStmt, visitExpr, Visitor.result, hf]
    | other => cases hf : (P.env vars).features <;> simp [parseFeature, visitStmts, visitStmt, visitExpr, Visitor.result, hf]
  simp [post, postBody, hev, hp, addUrl, hpf, serialize, serializers, Ser.matches, hv, Ser.serialize, generateImage, hl]

end ReplProps

/-! ## A small interpreter, to show that the hypotheses can be met -/

/-- The statements of a small interpreter over a counter: an assignment, a counting call that returns an array, one that prints, one
that raises a SyntaxError after counting, the counting call with a blank in front. -/
inductive Toy where
  | assign (n : Nat) | count | say | bad | blankCount
  deriving DecidableEq

/-- The interpreter. -/
def toy : Python Nat Toy Nat Nat where
  eval
    | .assign _, s => (s, [], none, .syntaxError)
    | .count, s => (s + 1, [], none, .value (s + 1))
    | .say, s => (s, ['h', 'i'], some 99, .value 0)
    | .bad, s => (s + 1, [], none, .syntaxError)
    | .blankCount, s => (s + 1, [], none, .value (s + 1))
  exec
    | .assign n, _ => (n, ['o', 'k'], none, true)
    | .count, s => (s + 1, [], none, true)
    | .say, s => (s, ['h', 'i'], none, true)
    | .bad, s => (s + 1, [], none, false)
    | .blankCount, s => (s + 1, [], none, false)
  parse
    | .blankCount => none
    | _ => some [.expr .other]
  str n := if n = 0 then ['N', 'o', 'n', 'e'] else ['a']
  value n := if n = 0 then .none else .array (n + 1) 5
  env _ := ⟨none, fun _ => none⟩

/-- The application at its start. -/
def toyWorld : World Nat Nat := ⟨0, 7, []⟩

/-- Counting once gives a matrix and a url; the url keeps giving it after counting again (an error by then) and assigning. -/
example : (post toy (serialize id id) 1 .count 41 toyWorld).2 = ⟨true, some ['a'], some 41, some .png, false⟩ ∧
    (getTemp (posts toy (serialize id id) 1 toyWorld [(.count, 41), (.count, 42), (.assign 5, 43)]) 41).map (·.contentType) = some .png ∧
    (getTemp (posts toy (serialize id id) 1 toyWorld [(.count, 41), (.count, 42), (.assign 5, 43)]) 42).isNone ∧
    (post toy (serialize id id) 1 .count 42 (posts toy (serialize id id) 1 toyWorld [(.count, 41)])).2.ok = false := ⟨rfl, rfl, rfl, rfl⟩

/-- Run twice. -/
example : (post toy (serialize id id) 1 .bad 41 toyWorld).1.vars = 2 ∧ (post toy (serialize id id) 1 .blankCount 41 toyWorld).1.vars = 2 ∧
    SameEffect toy .bad ∧ SameEffect toy .blankCount := ⟨rfl, rfl, fun _ => rfl, fun _ => rfl⟩

/-- Printed and lost. -/
example : (post toy (serialize id id) 1 .say 41 toyWorld).2 = ⟨true, some ['N', 'o', 'n', 'e'], none, none, false⟩ ∧
    (post toy (serialize id id) 1 .say 41 toyWorld).1.stdout = 7 ∧ ¬ ['h', 'i'] <:+: toy.str 0 := ⟨rfl, rfl, by decide⟩

section Witnesses
example := C167_served_iff (A := Nat) id id ['d'] oggFeat (fun _ => rfl) (some (.time true)) (by simp)
example := C167_ogg (A := Nat) id id ['d'] oggFeat rfl rfl false
example := C167_json (A := Nat) id id ['d'] ⟨['m'], .other, .json, 0, 0, false⟩ rfl (by simp) false
example := C167_array (A := Nat) id id ['d'] fftFeat rfl rfl (.inr (.inl rfl)) false
example := C178_onsets (A := Nat) id id ['d'] onsetFeat rfl (by simp [onsetFeat]) [(0, 5)]
example := C170_audio id id ⟨none, none, .none, Value.audio 2 [10, 20, 30, 40, 50]⟩ 2 [10, 20, 30, 40, 50] rfl (by decide)
example := C176_parser (D := Nat) (fun n => if n = ['f', 'f', 't'] then some fftFeat else none) (fun n => if n = ['d'] then some 7 else none)
  (.attr (.name ['d']) ['f', 'f', 't']) (by simp) 7 fftFeat
example := C176_module (D := Nat) (fun n => if n = ['f', 'f', 't'] then some fftFeat else none) (fun n => if n = ['d'] then some 7 else none)
  (by simp) [.expr (.attr (.name ['d']) ['f', 'f', 't'])]
example := C172_expression toy (serialize id id) 1 .count 41 toyWorld 1 [] none 1 [.expr .other] rfl rfl
example := C172_statement toy (serialize id id) 1 (.assign 5) 41 toyWorld none none 5 ['o', 'k'] true rfl rfl
example := C172_unparsed toy (serialize id id) 1 .blankCount 41 toyWorld 1 2 [] [] none none 1 false rfl rfl rfl
example := C172_raised { toy with eval := fun _ s => (s + 1, ['x'], none, .raised) } (serialize id id) 1 .count 41 toyWorld 1 ['x'] none rfl
example := C171_stable toy (serialize id id) 1 toyWorld [] [(.count, 42), (.assign 5, 43)] .count 41 41 (by decide) rfl
example := C171_not_found toy (serialize id id) 1 toyWorld rfl [(.assign 5, 43)] 41 (by
  intro b c u a h
  match b with
  | [] => simp at h; obtain ⟨⟨rfl, rfl⟩, _⟩ := h; exact (by decide : (none : Option Nat) ≠ some 41)
  | x :: b' => simp at h)
end Witnesses

end Zounds.Repl
