import Verif.Model.ContentRange
import Verif.Props.Midi
import Mathlib.Tactic.Common
import Mathlib.Tactic.Linarith
import Mathlib.Tactic.Ring
import Mathlib.Tactic.FieldSimp
import Mathlib.Algebra.Order.Field.Rat

/-!
# C30: requested HTTP ranges produce the right bytes and the right Content-Range
-/

namespace Zounds.Http
open Zounds.Midi (pyInt fmtInt fmtNat)

/-! ## Specification -/

/-- The header texts a client sends: `bytes=a-b`, `bytes=a-` and `bytes=-n`. -/
def closedHeader (a b : Nat) : List Char := ['b', 'y', 't', 'e', 's', '='] ++ fmtNat a ++ '-' :: fmtNat b
def openHeader (a : Nat) : List Char := ['b', 'y', 't', 'e', 's', '='] ++ fmtNat a ++ ['-']
def suffixHeader (n : Nat) : List Char := ['b', 'y', 't', 'e', 's', '=', '-'] ++ fmtNat n

/-- What HTTP means by `bytes=a-b`: positions `a` to `b` inclusive. -/
def inclusiveBytes {α : Type} (file : List α) (a b : Nat) : List α := (file.take (b + 1)).drop a

/-- The half-open interval of positions `a ≤ i < b`. -/
def halfOpenBytes {α : Type} (file : List α) (a b : Nat) : List α := (file.take b).drop a

/-- Text of a Content-Range header with the given numbers. -/
def rangeText (a b total : Nat) : List Char :=
  ['b', 'y', 't', 'e', 's', ' '] ++ fmtNat a ++ ['-'] ++ fmtNat b ++ ['/'] ++ fmtNat total

/-! ## Parsing -/

theorem splitFirst_eq_some (c : Char) (s a b : List Char) :
    splitFirst c s = some (a, b) ↔ s = a ++ c :: b ∧ c ∉ a := by
  induction s generalizing a with
  | nil => simp [splitFirst]
  | cons x xs ih =>
    simp only [splitFirst]
    split
    · rename_i h; subst h
      constructor
      · intro h; simp at h; obtain ⟨rfl, rfl⟩ := h; simp
      · rintro ⟨h1, h2⟩
        cases a with
        | nil => simp at h1; simp [h1]
        | cons y ys => simp at h1 h2; exact absurd h1.1 h2.1
    · rename_i hx
      cases hs : splitFirst c xs with
      | none =>
        simp only [reduceCtorEq, false_iff]
        rintro ⟨h1, h2⟩
        cases a with
        | nil => simp at h1; exact hx h1.1
        | cons y ys =>
          simp at h1 h2
          have := (ih ys).2 ⟨h1.2, h2.2⟩
          rw [hs] at this; cases this
      | some ab =>
        obtain ⟨a', b'⟩ := ab
        simp only [Option.some.injEq, Prod.mk.injEq]
        constructor
        · rintro ⟨rfl, rfl⟩
          have := (ih a').1 hs
          exact ⟨by simp [this.1], by simp [this.2]; exact fun h => hx h.symm⟩
        · rintro ⟨h1, h2⟩
          cases a with
          | nil => simp at h1; exact absurd h1.1 hx
          | cons y ys =>
            simp at h1 h2
            have h3 := (ih ys).2 ⟨h1.2, h2.2⟩
            rw [hs] at h3; simp at h3; simp [h1.1, h3]

theorem lazyTail_of_no_newline {r : List Char} (h : '\n' ∉ r) : lazyTail r = some r := by
  simp [lazyTail, h]

/-- **C30, grammar**: a (single-line) header is understood exactly when it is a non-empty unit without `=`, then `=`, then a
non-empty start without `-`, then `-`, then anything. -/
theorem C30_grammar (raw unit start stop : List Char) (hnl : '\n' ∉ raw) :
    reMatch raw = some (unit, start, stop) ↔
      raw = unit ++ '=' :: (start ++ '-' :: stop) ∧ unit ≠ [] ∧ '=' ∉ unit ∧ start ≠ [] ∧ '-' ∉ start := by
  unfold reMatch
  constructor
  · intro h
    split at h
    · cases h
    · rename_i u r h1
      split at h
      · cases h
      · rename_i hu
        split at h
        · cases h
        · rename_i s rest h2
          split at h
          · cases h
          · rename_i hs
            obtain ⟨e1, n1⟩ := (splitFirst_eq_some _ _ _ _).1 h1
            obtain ⟨e2, n2⟩ := (splitFirst_eq_some _ _ _ _).1 h2
            have hr : '\n' ∉ rest := by
              intro hc; apply hnl; rw [e1, e2]; simp [hc]
            rw [lazyTail_of_no_newline hr] at h
            simp at h
            obtain ⟨rfl, rfl, rfl⟩ := h
            exact ⟨by rw [e1, e2], hu, n1, hs, n2⟩
  · rintro ⟨rfl, hu, n1, hs, n2⟩
    rw [(splitFirst_eq_some '=' _ unit (start ++ '-' :: stop)).2 ⟨rfl, n1⟩]
    simp only [hu, if_false]
    rw [(splitFirst_eq_some '-' _ start stop).2 ⟨rfl, n2⟩]
    have hr : '\n' ∉ stop := by intro hc; apply hnl; simp [hc]
    simp only [hs, if_false, lazyTail_of_no_newline hr]

theorem minus_notin_fmtNat (n : Nat) : '-' ∉ fmtNat n := by
  intro h
  obtain ⟨d, hd, he⟩ := Midi.fmtNat_chars n _ h
  exact (Midi.digitChar_facts hd).2.2.1 he.symm

theorem nl_notin_fmtNat (n : Nat) : '\n' ∉ fmtNat n := by
  intro h
  obtain ⟨d, hd, he⟩ := Midi.fmtNat_chars n _ h
  have := (Midi.digitChar_facts hd).2.1
  rw [← he] at this; exact absurd this (by decide)

theorem pyInt_fmtNat (n : Nat) : pyInt (fmtNat n) = .ok (n : Int) := Midi.pyInt_fmtInt (Int.ofNat n)

theorem range_bytes (pf) (a : Nat) (stop : List Char) (h : '\n' ∉ stop) :
    range pf (some (['b', 'y', 't', 'e', 's', '='] ++ fmtNat a ++ '-' :: stop)) =
      .ok (.bytes (some (a : Int)) (stopOf stop)) := by
  have hm : reMatch (['b', 'y', 't', 'e', 's', '='] ++ fmtNat a ++ '-' :: stop) = some (['b', 'y', 't', 'e', 's'], fmtNat a, stop) := by
    rw [C30_grammar]
    · refine ⟨by simp, by simp, by decide, Midi.fmtNat_ne_nil a, minus_notin_fmtNat a⟩
    · simp [h, nl_notin_fmtNat]
  unfold range
  have hne : ['b', 'y', 't', 'e', 's', '='] ++ fmtNat a ++ '-' :: stop ≠ [] := by simp
  simp only [hne, if_false, hm, if_true]
  simp only [byteSlice, pyInt_fmtNat]

theorem range_closed (pf) (a b : Nat) :
    range pf (some (closedHeader a b)) = .ok (.bytes (some (a : Int)) (some (b : Int))) := by
  unfold closedHeader
  rw [range_bytes pf a _ (nl_notin_fmtNat b), stopOf, pyInt_fmtNat]

theorem range_open (pf) (a : Nat) :
    range pf (some (openHeader a)) = .ok (.bytes (some (a : Int)) none) := by
  unfold openHeader
  rw [range_bytes pf a [] (by simp)]; rfl

theorem fmtInt_natCast (n : Nat) : fmtInt (n : Int) = fmtNat n := rfl

theorem serve_bytes {α : Type} (file : List α) (a : Nat) (stop : Option Int) :
    serve file (.bytes (some (a : Int)) stop) = .ok
      ⟨206, (match stop with
        | none => file.drop a
        | some b => if b = 0 then file.drop a else fileRead file a (b - a)),
       contentRangeBytes (some (a : Int)) stop file.length⟩ := by
  have h : ¬ ((a : Int) < 0) := by omega
  cases stop with
  | none => simp [serve, h]
  | some b => by_cases hb : b = 0 <;> simp [serve, h, hb]

/-! ## Serving -/

/-- **C30, no range**: a request without a Range header, with an empty one, or with one that is not of the understood form
gets the whole file with status 200. -/
theorem C30_whole_file {α : Type} (pf) (file : List α) (header : Option (List Char))
    (h : header = none ∨ ∃ raw, header = some raw ∧ (raw = [] ∨ reMatch raw = none)) :
    ∃ r, getBytes pf file header = .ok r ∧ r.status = 200 ∧ r.body = file := by
  have hr : range pf header = .ok (.bytes none none) := by
    rcases h with rfl | ⟨raw, rfl, h⟩
    · rfl
    · unfold range
      by_cases hr : raw = []
      · simp [hr]
      · rcases h with h | h
        · exact absurd h hr
        · simp [hr, h]
  refine ⟨⟨200, file, contentRangeBytes none none file.length⟩, ?_, rfl, rfl⟩
  simp [getBytes, hr, serve]

/-- **C30, open range**: `bytes=a-` serves the file from position `a` to its end with status 206, and the header names the
start, the end (as the position after the last byte) and the true total. -/
theorem C30_open {α : Type} (pf) (file : List α) (a : Nat) :
    ∃ r, getBytes pf file (some (openHeader a)) = .ok r ∧ r.status = 206 ∧ r.body = file.drop a ∧
      r.contentRange = rangeText a file.length file.length := by
  refine ⟨⟨206, file.drop a, contentRangeBytes (some (a:Int)) none file.length⟩, ?_, rfl, rfl, ?_⟩
  · simp only [getBytes, range_open, serve_bytes]
  · simp only [contentRangeBytes, rangeText, fmtInt_natCast]

theorem getBytes_closed {α : Type} (pf) (file : List α) (a b : Nat) (hb : 0 < b) :
    getBytes pf file (some (closedHeader a b)) =
      .ok ⟨206, fileRead file a ((b : Int) - a), contentRangeBytes (some (a:Int)) (some (b:Int)) file.length⟩ := by
  have : ¬ ((b : Int) = 0) := by omega
  simp only [getBytes, range_closed, serve_bytes, this, if_false]

/-- **C30, closed range**: `bytes=a-b` with `a ≤ b` and `b > 0` serves the positions `a ≤ i < b` (clipped to the
file), with status 206 and the header `bytes a-b/total`.  Missing from the full property: position `b` itself, see
`C30_inclusive_refuted`. -/
theorem C30_closed_partial {α : Type} (pf) (file : List α) (a b : Nat) (hab : a ≤ b) (hb : 0 < b) :
    ∃ r, getBytes pf file (some (closedHeader a b)) = .ok r ∧ r.status = 206 ∧ r.body = halfOpenBytes file a b ∧
      r.contentRange = rangeText a b file.length := by
  refine ⟨⟨206, fileRead file a ((b : Int) - a), contentRangeBytes (some (a:Int)) (some (b:Int)) file.length⟩,
    getBytes_closed pf file a b hb, rfl, ?_, ?_⟩
  · have h1 : ¬ ((b : Int) - a < 0) := by omega
    have h2 : ((b : Int) - a).toNat = b - a := by omega
    simp [fileRead, h1, h2, halfOpenBytes, List.drop_take]
  · have h0 : ¬ ((b : Int) = 0) := by omega
    simp only [contentRangeBytes, rangeText, h0, if_false, fmtInt_natCast]

/-- **C30, refuted**: whenever the requested last byte exists, `bytes=a-b` (`b > 0`) never serves what HTTP means by
it; the byte at position `b` is always missing. -/
theorem C30_inclusive_refuted {α : Type} (pf) (file : List α) (a b : Nat) (hab : a ≤ b) (hb : 0 < b)
    (hlen : b < file.length) :
    ∃ r last, getBytes pf file (some (closedHeader a b)) = .ok r ∧ file[b]? = some last ∧
      r.body ++ [last] = inclusiveBytes file a b ∧ r.body ≠ inclusiveBytes file a b := by
  obtain ⟨r, h1, -, h3, -⟩ := C30_closed_partial pf file a b hab hb
  have key : r.body ++ [file[b]] = inclusiveBytes file a b := by
    rw [h3]; unfold halfOpenBytes inclusiveBytes
    rw [List.take_succ_eq_append_getElem hlen, List.drop_append_of_le_length (by simp; omega)]
  refine ⟨r, file[b], h1, by simp [hlen], key, ?_⟩
  rw [← key]; intro h
  have := congrArg List.length h
  simp at this

/-- **C30, refuted**: asking for the first byte only (`bytes=0-0`, a common probe) serves the whole file, and the header
claims all of it. -/
theorem C30_first_byte_refuted {α : Type} (pf) (file : List α) :
    ∃ r, getBytes pf file (some (closedHeader 0 0)) = .ok r ∧ r.status = 206 ∧ r.body = file ∧
      r.contentRange = rangeText 0 file.length file.length := by
  refine ⟨⟨206, file, contentRangeBytes (some ((0:Nat):Int)) (some ((0:Nat):Int)) file.length⟩, ?_, rfl, rfl, ?_⟩
  · simp only [getBytes, range_closed, serve_bytes]
    simp
  · simp only [contentRangeBytes, rangeText, fmtInt_natCast]
    simp [fmtInt_natCast]

/-- **C30, refuted**: a suffix range (`bytes=-n`, the last `n` bytes) is not understood: it gets the whole file, status 200. -/
theorem C30_suffix_refuted {α : Type} (pf) (file : List α) (n : Nat) :
    ∃ r, getBytes pf file (some (suffixHeader n)) = .ok r ∧ r.status = 200 ∧ r.body = file := by
  apply C30_whole_file
  right
  refine ⟨_, rfl, Or.inr ?_⟩
  cases h : reMatch (suffixHeader n) with
  | none => rfl
  | some x =>
    exfalso
    obtain ⟨u, s, t⟩ := x
    have hnl : '\n' ∉ suffixHeader n := by
      unfold suffixHeader; simp [nl_notin_fmtNat]
    obtain ⟨he, hu, hu2, hs, hs2⟩ := (C30_grammar _ _ _ _ hnl).1 h
    have h1 := (splitFirst_eq_some '=' (suffixHeader n) u (s ++ '-' :: t)).2 ⟨he, hu2⟩
    have h2 := (splitFirst_eq_some '=' (suffixHeader n) ['b', 'y', 't', 'e', 's'] ('-' :: fmtNat n)).2
      ⟨by simp [suffixHeader], by decide⟩
    rw [h1] at h2
    simp at h2
    cases s with
    | nil => exact hs rfl
    | cons c cs => simp at h2 hs2; exact hs2.1 h2.2.1.symm

/-- **C30, refuted**: a list of ranges is read as an open range from the first start: everything from there on is
served. -/
theorem C30_multi_range_refuted {α : Type} (pf) (file : List α) (a b : Nat) (more : List Char) (hm : '\n' ∉ more) :
    ∃ r, getBytes pf file (some (closedHeader a b ++ ',' :: more)) = .ok r ∧ r.status = 206 ∧ r.body = file.drop a := by
  have hpy : ∃ e, pyInt (fmtNat b ++ ',' :: more) = .error e := by
    -- the digits stop at the comma
    have hd : ∀ (s m : List Char) acc p, Midi.digits acc p (s ++ ',' :: m) = none := by
      intro s m
      induction s with
      | nil => intro acc p; simp [Midi.digits, Midi.digitVal]
      | cons c cs ih =>
        intro acc p
        simp only [List.cons_append, Midi.digits]
        split
        · split
          · exact ih _ _
          · rfl
        · split
          · exact ih _ _
          · rfl
    have hstrip : ∃ m', Midi.strip (fmtNat b ++ ',' :: more) = fmtNat b ++ ',' :: m' := by
      unfold Midi.strip
      have h1 : (fmtNat b ++ ',' :: more).dropWhile Midi.isWs = fmtNat b ++ ',' :: more := by
        apply Midi.dropWhile_ws_of_head
        intro c hc
        cases hf : fmtNat b with
        | nil => exact absurd hf (Midi.fmtNat_ne_nil b)
        | cons x xs =>
          rw [hf] at hc; simp at hc; subst hc
          obtain ⟨d, hd, rfl⟩ := Midi.fmtNat_chars b x (by simp [hf])
          exact (Midi.digitChar_facts hd).2.1
      rw [h1]
      have key : ∀ l r : List Char, ∃ m', ((l ++ ',' :: r).dropWhile Midi.isWs).reverse = r.reverse ++ ',' :: m' := by
        intro l r
        induction l with
        | nil => exact ⟨[], by
            have : Midi.isWs ',' = false := by decide
            simp [this]⟩
        | cons c cs ih =>
          simp only [List.cons_append, List.dropWhile]
          split
          · exact ih
          · exact ⟨(c :: cs).reverse, by simp⟩
      obtain ⟨m', hm'⟩ := key more.reverse (fmtNat b).reverse
      refine ⟨m', ?_⟩
      rw [← List.reverse_reverse (fmtNat b), ← hm']
      simp
    obtain ⟨m', hm'⟩ := hstrip
    unfold Midi.pyInt
    rw [hm']
    cases hf : fmtNat b with
    | nil => exact absurd hf (Midi.fmtNat_ne_nil b)
    | cons x xs =>
      obtain ⟨d, hd', hx⟩ := Midi.fmtNat_chars b x (by simp [hf])
      have e1 := (Midi.digitChar_facts hd').2.2.1
      have e2 := (Midi.digitChar_facts hd').2.2.2.1
      rw [← hx] at e1 e2
      refine ⟨.valueError, ?_⟩
      split
      · rename_i heq; simp at heq; exact absurd heq.1 e1
      · rename_i heq; simp at heq; exact absurd heq.1 e2
      · have := hd (x :: xs) m' 0 false
        rw [this]
  obtain ⟨e, he⟩ := hpy
  have hr : range pf (some (closedHeader a b ++ ',' :: more)) = .ok (.bytes (some (a:Int)) none) := by
    have h0 : closedHeader a b ++ ',' :: more = ['b', 'y', 't', 'e', 's', '='] ++ fmtNat a ++ '-' :: (fmtNat b ++ ',' :: more) := by
      simp [closedHeader]
    rw [h0, range_bytes pf a _ (by simp [hm, nl_notin_fmtNat]), stopOf, he]
  refine ⟨⟨206, file.drop a, contentRangeBytes (some (a:Int)) none file.length⟩, ?_, rfl, rfl⟩
  simp only [getBytes, hr, serve_bytes]

/-- **C30, refuted**: a range that starts at or after the end of the file is answered with 206 and an empty body, never with
416; and a stop beyond the end is echoed as it was asked, although fewer bytes are served. -/
theorem C30_unsatisfiable_refuted {α : Type} (pf) (file : List α) (a b : Nat) (hab : a < b) (ha : file.length ≤ a) :
    ∃ r, getBytes pf file (some (closedHeader a b)) = .ok r ∧ r.status = 206 ∧ r.body = [] ∧
      r.contentRange = rangeText a b file.length := by
  obtain ⟨r, h1, h2, h3, h4⟩ := C30_closed_partial pf file a b (by omega) (by omega)
  refine ⟨r, h1, h2, ?_, h4⟩
  rw [h3]; unfold halfOpenBytes
  apply List.drop_of_length_le; simp; omega

/-- **C30, refuted**: a range whose end is before its start serves everything from the start on. -/
theorem C30_reversed_refuted {α : Type} (pf) (file : List α) (a b : Nat) (hb : 0 < b) (hab : b < a) :
    ∃ r, getBytes pf file (some (closedHeader a b)) = .ok r ∧ r.body = file.drop a := by
  refine ⟨_, getBytes_closed pf file a b hb, ?_⟩
  have h1 : ((b : Int) - a < 0) := by omega
  simp [fileRead, h1]

/-- **C30, all headers**: no byte-range request ever serves anything but a contiguous piece of the file, and it never runs past
what was asked for when a proper stop was given. -/
theorem C30_served_is_contiguous {α : Type} (pf) (file : List α) (header : Option (List Char)) (r : Response α)
    (h : getBytes pf file header = .ok r) : ∃ a n, r.body = (file.drop a).take n := by
  have full : ∀ l : List α, l = l.take l.length := fun l => by simp
  unfold getBytes at h
  split at h
  · cases h
  · rename_i rg _
    split at h
    · cases h
    · rename_i x hx
      simp at h; subst h
      unfold serve at hx
      split at hx
      · cases hx
      · rename_i start stop
        simp only at hx
        split at hx
        · cases hx
        · split at hx
          · cases hx
          · rename_i v hv
            simp at hx; subst hx
            simp only
            split at hv
            · simp at hv; subst hv; exact ⟨_, _, full _⟩
            · split at hv
              · simp at hv; subst hv; exact ⟨_, _, full _⟩
              · split at hv
                · cases hv
                · simp at hv; subst hv
                  unfold fileRead; split
                  · exact ⟨_, _, full _⟩
                  · exact ⟨_, _, rfl⟩

/-- **C30, unit**: any other unit is refused. -/
theorem C30_unit (pf) (raw unit start stop : List Char) (hm : reMatch raw = some (unit, start, stop)) (hr : raw ≠ [])
    (h1 : unit ≠ ['b', 'y', 't', 'e', 's']) (h2 : unit ≠ ['s', 'e', 'c', 'o', 'n', 'd', 's']) :
    range pf (some raw) = .error (.unitUnsupported unit) := by
  unfold range; simp only [hr, if_false, hm, h1, h2]

/-! ### seconds -/

theorem truncRat_intCast (z : Int) : truncRat (z : Rat) = z := by
  unfold truncRat; split <;> simp

/-- **C30, seconds**: `seconds=a-b` requests exactly the interval from `a` to `b` (a and b given to the picosecond), and
`seconds=a-` everything from `a`. -/
theorem C30_seconds (pf : List Char → Option Rat) (raw start stop : List Char) (a : Int)
    (hr : raw ≠ []) (hm : reMatch raw = some (['s', 'e', 'c', 'o', 'n', 'd', 's'], start, stop))
    (ha : pf start = some ((a : Rat) / 1000000000000)) :
    (∀ b : Int, pf stop = some ((b : Rat) / 1000000000000) → range pf (some raw) = .ok (.time a (some (b - a)))) ∧
    (pf stop = none → range pf (some raw) = .ok (.time a none)) := by
  have h1 : (1000000000000 : Rat) * ((a : Rat) / 1000000000000) = (a : Rat) := by field_simp
  have hne : ¬ (['s', 'e', 'c', 'o', 'n', 'd', 's'] = ['b', 'y', 't', 'e', 's']) := by decide
  have hrange : range pf (some raw) = timeSlice pf start stop := by
    unfold range; simp only [hr, if_false, hm, hne, if_true]
  rw [hrange]
  constructor
  · intro b hb
    have h2 : (1000000000000 : Rat) * ((b : Rat) / 1000000000000 - (a : Rat) / 1000000000000) = ((b - a : Int) : Rat) := by
      push_cast; field_simp
    simp only [timeSlice, ha, hb, h1, h2, truncRat_intCast]
  · intro hb
    simp only [timeSlice, ha, hb, h1, truncRat_intCast]

/-- **C30, seconds Content-Range**: it names the start of the slice, its end (or the total if open) and the total, except
that an interval ending at time zero is reported as running to the total. -/
theorem C30_seconds_content_range (s d t : Int) (h : s + d ≠ 0) :
    contentRangeTime s (some d) t =
      ((s : Rat) / 1000000000000, ((s + d : Int) : Rat) / 1000000000000, (t : Rat) / 1000000000000) ∧
    contentRangeTime s none t = ((s : Rat) / 1000000000000, (t : Rat) / 1000000000000, (t : Rat) / 1000000000000) := by
  refine ⟨?_, rfl⟩
  have he : (s : Rat) / 1000000000000 + (d : Rat) / 1000000000000 = ((s + d : Int) : Rat) / 1000000000000 := by
    push_cast; ring
  have h0 : ((s + d : Int) : Rat) / 1000000000000 ≠ 0 := by
    have : ((s + d : Int) : Rat) ≠ 0 := by exact_mod_cast h
    exact div_ne_zero this (by norm_num)
  simp only [contentRangeTime, he, h0, if_false]

theorem C30_seconds_zero_refuted (t : Int) : (contentRangeTime 0 (some 0) t).2.1 = (t : Rat) / 1000000000000 := by
  simp [contentRangeTime]

-- concrete instances of the hypotheses
example : ∃ r, getBytes (fun _ => none) [10, 20, 30, 40, 50] (some "bytes=1-3".toList) = .ok r ∧ r.status = 206 ∧
    r.body = [20, 30] ∧ r.contentRange = "bytes 1-3/5".toList :=
  ⟨_, rfl, rfl, rfl, by decide +kernel⟩
example : closedHeader 10 100 = "bytes=10-100".toList := by decide +kernel
example : reMatch "seconds=10.5-100.5".toList = some ("seconds".toList, "10.5".toList, "100.5".toList) := by decide
example : range (fun _ => none) (some "hours=1-2".toList) = .error (.unitUnsupported "hours".toList) :=
  C30_unit _ _ _ "1".toList "2".toList (by decide) (by decide) (by decide) (by decide)


/-! ### rounding of seconds, and a trailing newline -/

/-- `z` is `q` rounded towards zero. -/
def RoundsToZero (q : Rat) (z : Int) : Prop :=
  (0 ≤ q → 0 ≤ z ∧ (z : Rat) ≤ q ∧ q < z + 1) ∧ (q < 0 → z ≤ 0 ∧ q ≤ z ∧ (z : Rat) - 1 < q)

theorem truncRat_spec (q : Rat) : RoundsToZero q (truncRat q) := by
  unfold truncRat RoundsToZero
  constructor
  · intro h
    rw [if_pos h]
    refine ⟨?_, Rat.floor_le q, by have := Rat.lt_floor_add_one q; push_cast at this; exact this⟩
    exact Rat.le_floor_iff.2 (by simpa using h)
  · intro h
    rw [if_neg (not_le.2 h)]
    refine ⟨?_, Rat.le_ceil, ?_⟩
    · exact Rat.ceil_le_iff.2 (by simpa using h.le)
    · have := Rat.ceil_lt (x := q); linarith

/-- **C30, seconds with any fraction**: `seconds=a-b` requests the start `a` and the duration `b − a`, each rounded towards zero
to a whole number of picoseconds. -/
theorem C30_seconds_trunc (pf : List Char → Option Rat) (raw start stop : List Char) (a b : Rat)
    (hr : raw ≠ []) (hm : reMatch raw = some (['s', 'e', 'c', 'o', 'n', 'd', 's'], start, stop))
    (ha : pf start = some a) (hb : pf stop = some b) :
    ∃ s d, range pf (some raw) = .ok (.time s (some d)) ∧
      RoundsToZero (1000000000000 * a) s ∧ RoundsToZero (1000000000000 * (b - a)) d := by
  have hne : ¬ (['s', 'e', 'c', 'o', 'n', 'd', 's'] = ['b', 'y', 't', 'e', 's']) := by decide
  refine ⟨truncRat (1000000000000 * a), truncRat (1000000000000 * (b - a)), ?_, truncRat_spec _, truncRat_spec _⟩
  unfold range; simp only [hr, if_false, hm, hne, if_true, timeSlice, ha, hb]

/-- **C30, trailing newline**: one newline at the very end of the header is ignored. -/
theorem C30_trailing_newline (raw unit start stop : List Char) (hnl : '\n' ∉ raw)
    (h : reMatch raw = some (unit, start, stop)) : reMatch (raw ++ ['\n']) = some (unit, start, stop) := by
  obtain ⟨rfl, hu, n1, hs, n2⟩ := (C30_grammar _ _ _ _ hnl).1 h
  have e : (unit ++ '=' :: (start ++ '-' :: stop)) ++ ['\n'] = unit ++ '=' :: (start ++ '-' :: (stop ++ ['\n'])) := by simp
  have hr : '\n' ∉ stop := by intro hc; apply hnl; simp [hc]
  rw [e]; unfold reMatch
  rw [(splitFirst_eq_some '=' _ unit _).2 ⟨rfl, n1⟩]
  simp only [hu, if_false]
  rw [(splitFirst_eq_some '-' _ start _).2 ⟨rfl, n2⟩]
  have : lazyTail (stop ++ ['\n']) = some stop := by simp [lazyTail, hr]
  simp only [hs, if_false, this]

example : RoundsToZero (-3 / 2) (-1) ∧ RoundsToZero (3 / 2) 1 := by
  constructor <;> constructor <;> intro h <;> norm_num at *

example := (C30_grammar "bytes=1-3".toList "bytes".toList "1".toList "3".toList (by decide)).1 (by decide)
example : ∃ r, getBytes (fun _ => none) [10, 20, 30] (some "nonsense".toList) = .ok r ∧ r.status = 200 ∧ r.body = [10, 20, 30] :=
  C30_whole_file _ _ _ (Or.inr ⟨_, rfl, Or.inr (by decide)⟩)
example := C30_closed_partial (fun _ => none) [10, 20, 30, 40, 50] 1 3 (by decide) (by decide)
example : ∃ a n, ∃ r, getBytes (fun _ => none) [10, 20, 30, 40, 50] (some (closedHeader 1 3)) = .ok r ∧ r.body = (([10, 20, 30, 40, 50] : List Nat).drop a).take n := by
  obtain ⟨r, h, -⟩ := C30_closed_partial (fun _ => none) [10, 20, 30, 40, 50] 1 3 (by decide) (by decide)
  obtain ⟨a, n, e⟩ := C30_served_is_contiguous _ _ _ r h
  exact ⟨a, n, r, h, e⟩
example := C30_seconds_content_range 1000000000000 2000000000000 5000000000000 (by decide)
example := C30_trailing_newline "bytes=1-3".toList "bytes".toList "1".toList "3".toList (by decide) (by decide)
example := C30_seconds_trunc (fun s => if s = "1.5".toList then some (3 / 2) else some 2) "seconds=1.5-2".toList "1.5".toList "2".toList (3 / 2) 2 (by decide) (by decide) (by decide +kernel) (by decide +kernel)
example := C30_seconds (fun s => if s = "1.5".toList then some (((1500000000000 : Int) : Rat) / 1000000000000) else some 2) "seconds=1.5-2".toList "1.5".toList "2".toList 1500000000000 (by decide) (by decide) (by decide +kernel)

end Zounds.Http
