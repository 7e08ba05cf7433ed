import Verif.Model.Midi
import Mathlib.Tactic.Common

/-!
# C31: MIDI note names and numbers are mutually inverse
-/

namespace Zounds.Midi

/-! ## decimal text -/

theorem digitVal_digitChar {d : Nat} (h : d < 10) : digitVal (digitChar d) = some d := by
  have : d = 0 ∨ d = 1 ∨ d = 2 ∨ d = 3 ∨ d = 4 ∨ d = 5 ∨ d = 6 ∨ d = 7 ∨ d = 8 ∨ d = 9 := by omega
  rcases this with h | h | h | h | h | h | h | h | h | h <;> subst h <;> decide

theorem digitChar_facts {d : Nat} (h : d < 10) :
    digitChar d ≠ '_' ∧ isWs (digitChar d) = false ∧ digitChar d ≠ '-' ∧ digitChar d ≠ '+' ∧ digitChar d ≠ '#' := by
  have : d = 0 ∨ d = 1 ∨ d = 2 ∨ d = 3 ∨ d = 4 ∨ d = 5 ∨ d = 6 ∨ d = 7 ∨ d = 8 ∨ d = 9 := by omega
  rcases this with h | h | h | h | h | h | h | h | h | h <;> subst h <;> decide

/-- All characters of a formatted natural number are digits. -/
theorem fmtNat_chars (n : Nat) : ∀ c ∈ fmtNat n, ∃ d < 10, c = digitChar d := by
  induction n using Nat.strongRecOn with
  | ind n ih =>
    intro c hc
    rw [fmtNat] at hc
    split at hc
    · simp at hc; exact ⟨n, by assumption, hc⟩
    · rw [List.mem_append] at hc
      rcases hc with hc | hc
      · exact ih _ (by omega) c hc
      · simp at hc; exact ⟨n % 10, by omega, hc⟩

theorem fmtNat_ne_nil (n : Nat) : fmtNat n ≠ [] := by
  rw [fmtNat]; split <;> simp

theorem digits_append_digit (acc : Nat) (p : Bool) (s : List Char) (v d : Nat) (hd : d < 10)
    (h : digits acc p s = some v) : digits acc p (s ++ [digitChar d]) = some (v * 10 + d) := by
  induction s generalizing acc p with
  | nil =>
    simp only [digits] at h
    split at h
    · simp at h; subst h
      simp [digits, digitVal_digitChar hd, (digitChar_facts hd).1]
    · cases h
  | cons c cs ih =>
    simp only [List.cons_append, digits] at h ⊢
    split
    · rename_i hc
      rw [if_pos hc] at h
      split at h
      · rename_i hp; rw [if_pos hp]; exact ih _ _ h
      · cases h
    · rename_i hc
      rw [if_neg hc] at h
      split at h
      · rename_i d' hd'; exact ih _ _ h
      · cases h

theorem digits_fmtNat (n : Nat) : digits 0 false (fmtNat n) = some n := by
  induction n using Nat.strongRecOn with
  | ind n ih =>
    rw [fmtNat]
    split
    · rename_i h
      simp [digits, digitVal_digitChar h, (digitChar_facts h).1]
    · rw [digits_append_digit 0 false _ (n / 10) (n % 10) (by omega) (ih _ (by omega))]
      congr 1; omega

theorem dropWhile_ws_of_head {s : List Char} (h : ∀ c ∈ s.head?, isWs c = false) : s.dropWhile isWs = s := by
  cases s with
  | nil => rfl
  | cons a t => simp at h; simp [List.dropWhile, h]

theorem strip_of_no_ws {s : List Char} (h : ∀ c ∈ s, isWs c = false) : strip s = s := by
  unfold strip
  have h1 : s.dropWhile isWs = s := dropWhile_ws_of_head (fun c hc => h c (List.mem_of_mem_head? hc))
  have h2 : s.reverse.dropWhile isWs = s.reverse :=
    dropWhile_ws_of_head (fun c hc => h c (by simpa using List.mem_of_mem_head? hc))
  rw [h1, h2, List.reverse_reverse]

theorem pyInt_fmtInt (i : Int) : pyInt (fmtInt i) = .ok i := by
  cases i with
  | ofNat n =>
    have hs : strip (fmtNat n) = fmtNat n := strip_of_no_ws (fun c hc => by
      obtain ⟨d, hd, rfl⟩ := fmtNat_chars n c hc; exact (digitChar_facts hd).2.1)
    have hp := digits_fmtNat n
    unfold pyInt
    simp only [fmtInt, hs]
    cases hf : fmtNat n with
    | nil => exact absurd hf (fmtNat_ne_nil n)
    | cons c cs =>
      obtain ⟨d, hd, hcd⟩ := fmtNat_chars n c (by simp [hf])
      have h1 := (digitChar_facts hd).2.2.1
      have h2 := (digitChar_facts hd).2.2.2.1
      rw [← hcd] at h1 h2
      rw [hf] at hp
      split
      · rename_i heq; simp at heq; exact absurd heq.1 h1
      · rename_i heq; simp at heq; exact absurd heq.1 h2
      · rw [hp]; rfl
  | negSucc n =>
    have hs : strip ('-' :: fmtNat (n+1)) = '-' :: fmtNat (n+1) := strip_of_no_ws (fun c hc => by
      rw [List.mem_cons] at hc
      rcases hc with rfl | hc
      · decide
      · obtain ⟨d, hd, rfl⟩ := fmtNat_chars _ c hc; exact (digitChar_facts hd).2.1)
    unfold pyInt
    simp only [fmtInt, hs, digits_fmtNat]
    rfl

theorem fmtInt_head (i : Int) : ∃ c cs, fmtInt i = c :: cs ∧ c ≠ '#' := by
  cases i with
  | ofNat n =>
    cases hf : fmtNat n with
    | nil => exact absurd hf (fmtNat_ne_nil n)
    | cons c cs =>
      obtain ⟨d, hd, hcd⟩ := fmtNat_chars n c (by simp [hf])
      exact ⟨c, cs, by simp [fmtInt, hf], hcd ▸ (digitChar_facts hd).2.2.2.2⟩
  | negSucc n => exact ⟨'-', fmtNat (n+1), rfl, by decide⟩

theorem fmtInt_injective {i j : Int} (h : fmtInt i = fmtInt j) : i = j := by
  have := pyInt_fmtInt i
  rw [h, pyInt_fmtInt] at this
  exact (Except.ok.inj this).symm

/-! ## the property -/

/-- Specification: the twelve names of the chromatic scale, one per pitch class, sharps only. -/
def pitchClass : Fin 12 → String
  | 0 => "C" | 1 => "C#" | 2 => "D" | 3 => "D#" | 4 => "E" | 5 => "F" | 6 => "F#" | 7 => "G" | 8 => "G#" | 9 => "A"
  | 10 => "A#" | 11 => "B"

/-- Specification: the canonical name of pitch class `p` in octave `o`, e.g. `A#-1`. -/
def canonical (p : Fin 12) (o : Int) : List Char := (pitchClass p).toList ++ fmtInt o

theorem notes_getD (p : Fin 12) : notes.getD p.val [] = (pitchClass p).toList := by
  revert p; decide

theorem noteToMidi_core (p : Fin 12) (r : List Char) (hr : ∃ c cs, r = c :: cs ∧ c ≠ '#') :
    noteToMidi ((pitchClass p).toList ++ r) =
      match pyInt r with
      | .error e => .error e
      | .ok o => .ok (o * 12 + (p.val : Int)) := by
  obtain ⟨c, cs, rfl, hc⟩ := hr
  have hp : p = 0 ∨ p = 1 ∨ p = 2 ∨ p = 3 ∨ p = 4 ∨ p = 5 ∨ p = 6 ∨ p = 7 ∨ p = 8 ∨ p = 9 ∨ p = 10 ∨ p = 11 := by
    revert p; decide
  rcases hp with h | h | h | h | h | h | h | h | h | h | h | h <;> subst h <;>
    simp only [pitchClass, noteToMidi] <;> simp [hc] <;> cases pyInt (c :: cs) <;> (first | rfl | simp [noteIndex, notes, List.idxOf?, List.findIdx?, List.findIdx?.go])

/-- **C31, naming**: note number `n` is named by its pitch class `n mod 12` and its octave `n div 12` (floor division, so
that negative numbers have negative octaves): the name of `12·o + p` is the canonical name of pitch class `p` in
octave `o`. -/
theorem C31_name (p : Fin 12) (o : Int) : midiToNote (12 * o + p.val) = canonical p o := by
  have hp : ((p.val : Int)) < 12 := by have := p.isLt; omega
  have h1 : (12 * o + (p.val : Int)).fdiv 12 = o := by
    rw [Int.fdiv_eq_ediv_of_nonneg _ (by decide)]; omega
  have h2 : (12 * o + (p.val : Int)).fmod 12 = p.val := by
    rw [Int.fmod_eq_emod_of_nonneg _ (by decide)]; omega
  unfold midiToNote canonical
  rw [h1, h2, ← notes_getD]; rfl

/-- **C31, reading**: the canonical name of pitch class `p` in octave `o` denotes note number `12·o + p`. -/
theorem C31_number (p : Fin 12) (o : Int) : noteToMidi (canonical p o) = .ok (12 * o + p.val) := by
  unfold canonical
  rw [noteToMidi_core p _ (fmtInt_head o), pyInt_fmtInt]
  simp only [Except.ok.injEq]; omega

theorem exists_pitch (n : Int) : ∃ (p : Fin 12) (o : Int), n = 12 * o + p.val := by
  refine ⟨⟨(n % 12).toNat, by omega⟩, n / 12, ?_⟩
  simp only; omega

/-- **C31, number → name → number**: for every integer, negative ones included. -/
theorem C31_roundtrip (n : Int) : noteToMidi (midiToNote n) = .ok n := by
  obtain ⟨p, o, rfl⟩ := exists_pitch n
  rw [C31_name, C31_number]

/-- **C31, no two numbers share a name.** -/
theorem C31_injective {m n : Int} (h : midiToNote m = midiToNote n) : m = n := by
  have := C31_roundtrip m
  rw [h, C31_roundtrip] at this
  exact (Except.ok.inj this).symm

example : midiToNote 60 ≠ midiToNote 72 := fun h => absurd (C31_injective h) (by decide)

/-- **C31, name → number → name**: reading a name and writing it again gives the same text exactly when the text is a
canonical name. -/
theorem C31_name_roundtrip (s : List Char) :
    (∃ n, noteToMidi s = .ok n ∧ midiToNote n = s) ↔ ∃ p o, s = canonical p o := by
  constructor
  · rintro ⟨n, -, hs⟩
    obtain ⟨p, o, rfl⟩ := exists_pitch n
    exact ⟨p, o, by rw [← hs, C31_name]⟩
  · rintro ⟨p, o, rfl⟩
    exact ⟨_, C31_number p o, C31_name p o⟩

theorem notes_mem_pitchClass (i : Nat) (name : List Char) (h : notes.idxOf? name = some i) :
    ∃ p : Fin 12, p.val = i ∧ name = (pitchClass p).toList := by
  rw [List.idxOf?, List.findIdx?_eq_some_iff_getElem] at h
  obtain ⟨hi, h1, -⟩ := h
  have h12 : i < 12 := hi
  refine ⟨⟨i, h12⟩, rfl, ?_⟩
  rw [← notes_getD]
  simp only [beq_iff_eq] at h1
  simp [List.getD, ← h1, List.getElem?_eq_getElem hi]

/-- **C31, what is accepted**: a text that is read as a number is one of the twelve names followed by something Python's
`int` reads as the octave, and the number is `12·octave + pitch class`; so two texts denote the same number only if they
name the same pitch class and the same octave. -/
theorem C31_accepts_iff (s : List Char) (n : Int) :
    noteToMidi s = .ok n ↔
      ∃ (p : Fin 12) (r : List Char) (o : Int),
        s = (pitchClass p).toList ++ r ∧ r.head? ≠ some '#' ∧ pyInt r = .ok o ∧ n = 12 * o + p.val := by
  constructor
  · intro h
    unfold noteToMidi at h
    split at h
    · cases h
    · rename_i c hc
      simp only at h
      split at h
      · cases h
      · rename_i o ho
        split at h
        · cases h
        · rename_i i hi
          unfold noteIndex at hi
          split at hi
          · rename_i j hj
            have hij : j = i := Except.ok.inj hi
            obtain ⟨p, hp, hname⟩ := notes_mem_pitchClass j _ hj
            refine ⟨p, _, o, ?_, ?_, ho, ?_⟩
            · rw [← hname, List.take_append_drop]
            · intro hh
              split at hh
              · rw [List.head?_drop] at hh
                have h3 := ho
                rename_i hcc
                simp only [hcc, if_true] at h3
                -- a second '#' cannot be read as a number
                cases hd : s.drop 2 with
                | nil => rw [← List.head?_drop, hd] at hh; simp at hh
                | cons a t =>
                  rw [← List.head?_drop, hd] at hh
                  simp at hh; subst hh
                  rw [hd] at h3
                  revert h3
                  unfold pyInt
                  have hst : ∃ t', strip ('#' :: t) = '#' :: t' := by
                    unfold strip
                    have : List.dropWhile isWs ('#' :: t) = '#' :: t := by simp [List.dropWhile, isWs]
                    rw [this, List.reverse_cons]
                    have key : ∀ l : List Char, ∃ t', ((l ++ ['#']).dropWhile isWs).reverse = '#' :: t' := by
                      intro l
                      induction l with
                      | nil => exact ⟨[], by decide⟩
                      | cons a l ih =>
                        simp only [List.cons_append, List.dropWhile]
                        split
                        · exact ih
                        · exact ⟨(a :: l).reverse, by simp⟩
                    exact key _
                  obtain ⟨t', ht'⟩ := hst
                  rw [ht']
                  simp [digits, digitVal]
              · rename_i hcc
                rw [List.head?_drop, hc] at hh
                simp at hh; exact hcc hh
            · have := Except.ok.inj h; omega
          · cases hi
  · rintro ⟨p, r, o, rfl, hr, ho, rfl⟩
    rw [noteToMidi_core, ho]
    · simp only [Except.ok.injEq]; omega
    · cases r with
      | nil => simp [pyInt, strip, digits] at ho
      | cons c cs => exact ⟨c, cs, rfl, by simpa using hr⟩

/-- **C31, refuted for flats and unusual spellings**: 'Bb3' is a ValueError, 'E#4', 'c4' and 'H4' are KeyErrors, the bare
name 'C' an IndexError. -/
theorem C31_spellings_refuted :
    noteToMidi "Bb3".toList = .error .valueError ∧ noteToMidi "E#4".toList = .error .keyError ∧
    noteToMidi "c4".toList = .error .keyError ∧ noteToMidi "C".toList = .error .indexError ∧
    noteToMidi "C#".toList = .error .valueError := by
  refine ⟨?_, ?_, ?_, ?_, ?_⟩ <;> rfl

/-- **C31, refuted for floats**: `midi_to_note` also takes float note numbers (it converts the index with `int`), but no
name it produces for one can be read back: reading always raises ValueError. -/
theorem C31_float_refuted (n : Int) : noteToMidi (midiToNoteFloat n) = .error .valueError := by
  obtain ⟨p, o, rfl⟩ := exists_pitch n
  have h1 : midiToNoteFloat (12 * o + (p.val : Int)) = canonical p o ++ ['.', '0'] := by
    rw [← C31_name]; rfl
  rw [h1, canonical, List.append_assoc, noteToMidi_core]
  · have hlem : ∀ (s : List Char) acc b, digits acc b (s ++ ['.', '0']) = none := by
      intro s
      induction s with
      | nil => intro acc b; simp [digits, digitVal]
      | cons c cs ih =>
        intro acc b
        simp only [List.cons_append, digits]
        split
        · split
          · exact ih _ _
          · rfl
        · split
          · exact ih _ _
          · rfl
    have hws : ∀ c ∈ fmtInt o ++ ['.', '0'], isWs c = false := by
      intro c hc
      rw [List.mem_append] at hc
      rcases hc with hc | hc
      · cases o with
        | ofNat n =>
          obtain ⟨d, hd, rfl⟩ := fmtNat_chars _ c hc; exact (digitChar_facts hd).2.1
        | negSucc n =>
          simp only [fmtInt, List.mem_cons] at hc
          rcases hc with rfl | hc
          · decide
          · obtain ⟨d, hd, rfl⟩ := fmtNat_chars _ c hc; exact (digitChar_facts hd).2.1
      · simp at hc; rcases hc with rfl | rfl <;> decide
    have : pyInt (fmtInt o ++ ['.', '0']) = .error .valueError := by
      unfold pyInt
      rw [strip_of_no_ws hws]
      split
      · rename_i r heq
        have : ∃ r', r = r' ++ ['.', '0'] := by
          obtain ⟨c, cs, hcs, -⟩ := fmtInt_head o
          rw [hcs] at heq; simp at heq; exact ⟨cs, heq.2.symm⟩
        obtain ⟨r', rfl⟩ := this
        rw [hlem]
      · rename_i r heq
        have : ∃ r', r = r' ++ ['.', '0'] := by
          obtain ⟨c, cs, hcs, -⟩ := fmtInt_head o
          rw [hcs] at heq; simp at heq; exact ⟨cs, heq.2.symm⟩
        obtain ⟨r', rfl⟩ := this
        rw [hlem]
      · rw [hlem]
    rw [this]
  · obtain ⟨c, cs, hcs, hc⟩ := fmtInt_head o
    exact ⟨c, cs ++ ['.', '0'], by rw [hcs]; rfl, hc⟩

/-! ## The texts read as an octave -/

/-- Decimal digits with single underscores between them, and the number they write. -/
inductive Numeral : List Char → Nat → Prop
  | digit {v : Nat} : v < 10 → Numeral [digitChar v] v
  | next {cs : List Char} {n v : Nat} : Numeral cs n → v < 10 → Numeral (cs ++ [digitChar v]) (n * 10 + v)
  | under {cs : List Char} {n v : Nat} : Numeral cs n → v < 10 → Numeral (cs ++ ['_', digitChar v]) (n * 10 + v)

/-- A numeral with an optional sign. -/
inductive Signed : List Char → Int → Prop
  | plain {cs : List Char} {n : Nat} : Numeral cs n → Signed cs n
  | plus {cs : List Char} {n : Nat} : Numeral cs n → Signed ('+' :: cs) n
  | minus {cs : List Char} {n : Nat} : Numeral cs n → Signed ('-' :: cs) (-(n : Int))

/-- The ASCII white space characters. -/
def Blank (c : Char) : Prop := c.toNat = 32 ∨ (9 ≤ c.toNat ∧ c.toNat ≤ 13)

theorem isWs_iff (c : Char) : isWs c = true ↔ Blank c := by
  have hc : ∀ d : Char, c = d ↔ c.toNat = d.toNat := fun d => ⟨fun h => by rw [h], fun h => Char.toNat_inj.mp h⟩
  simp only [isWs, Blank, Bool.or_eq_true, beq_iff_eq, hc]
  have e1 : ' '.toNat = 32 := rfl
  have e2 : '\t'.toNat = 9 := rfl
  have e3 : '\n'.toNat = 10 := rfl
  have e4 : '\r'.toNat = 13 := rfl
  rw [e1, e2, e3, e4]
  omega

theorem digitVal_iff (c : Char) (v : Nat) : digitVal c = some v ↔ v < 10 ∧ c = digitChar v := by
  constructor
  · intro h
    unfold digitVal at h
    split at h
    · rename_i hc
      simp only [Option.some.injEq] at h
      refine ⟨by omega, ?_⟩
      have hv : c.toNat = 48 + v := by omega
      have : (digitChar v).toNat = 48 + v := by
        have hlt : v < 10 := by omega
        have : v = 0 ∨ v = 1 ∨ v = 2 ∨ v = 3 ∨ v = 4 ∨ v = 5 ∨ v = 6 ∨ v = 7 ∨ v = 8 ∨ v = 9 := by omega
        rcases this with h | h | h | h | h | h | h | h | h | h <;> subst h <;> decide
      exact Char.toNat_inj.mp (by rw [hv, this])
    · cases h
  · rintro ⟨h, rfl⟩
    exact digitVal_digitChar h

theorem numeral_digits {cs : List Char} {n : Nat} (h : Numeral cs n) :
    ∀ suf, digits 0 false (cs ++ suf) = digits n true suf := by
  induction h with
  | @digit v hv => intro suf; simp [digits, digitVal_digitChar hv, (digitChar_facts hv).1]
  | @next cs n v _ hv ih =>
    intro suf
    rw [List.append_assoc, ih]
    simp [digits, digitVal_digitChar hv, (digitChar_facts hv).1]
  | @under cs n v _ hv ih =>
    intro suf
    rw [List.append_assoc, ih]
    simp [digits, digitVal_digitChar hv, (digitChar_facts hv).1]

theorem digits_numeral (r : List Char) : ∀ (acc n : Nat),
    (∀ cs, Numeral cs acc → digits acc true r = some n → Numeral (cs ++ r) n) ∧
    (∀ cs, Numeral cs acc → digits acc false r = some n → Numeral (cs ++ '_' :: r) n) := by
  induction r with
  | nil =>
    intro acc n
    constructor
    · intro cs hcs h
      simp only [digits, if_true, Option.some.injEq] at h
      subst h; simpa using hcs
    · intro cs hcs h
      simp [digits] at h
  | cons c r ih =>
    intro acc n
    constructor
    · intro cs hcs h
      simp only [digits, if_true] at h
      split at h
      · rename_i hc
        subst hc
        exact (ih acc n).2 cs hcs h
      · split at h
        · rename_i d hd
          obtain ⟨hd1, rfl⟩ := (digitVal_iff c d).mp hd
          have := (ih (acc * 10 + d) n).1 (cs ++ [digitChar d]) (.next hcs hd1) h
          simpa using this
        · cases h
    · intro cs hcs h
      simp only [digits, Bool.false_eq_true, if_false] at h
      split at h
      · cases h
      · split at h
        · rename_i d hd
          obtain ⟨hd1, rfl⟩ := (digitVal_iff c d).mp hd
          have := (ih (acc * 10 + d) n).1 (cs ++ ['_', digitChar d]) (.under hcs hd1) h
          simpa using this
        · cases h

theorem digits_iff (r : List Char) (n : Nat) : digits 0 false r = some n ↔ Numeral r n := by
  constructor
  · intro h
    cases r with
    | nil => simp [digits] at h
    | cons c r =>
      simp only [digits, Bool.false_eq_true, if_false] at h
      split at h
      · cases h
      · split at h
        · rename_i d hd
          obtain ⟨hd1, rfl⟩ := (digitVal_iff c d).mp hd
          have := (digits_numeral r (0 * 10 + d) n).1 [digitChar d] (by simpa using Numeral.digit hd1) h
          simpa using this
        · cases h
  · intro h
    have := numeral_digits h []
    simpa [digits] using this

theorem numeral_ends {cs : List Char} {n : Nat} (h : Numeral cs n) :
    (∃ v < 10, ∃ r, cs = digitChar v :: r) ∧ ∃ v < 10, ∃ r, cs = r ++ [digitChar v] := by
  induction h with
  | @digit v hv => exact ⟨⟨v, hv, [], rfl⟩, ⟨v, hv, [], rfl⟩⟩
  | @next cs n v _ hv ih =>
    obtain ⟨⟨w, hw, r, rfl⟩, _⟩ := ih
    exact ⟨⟨w, hw, _, rfl⟩, ⟨v, hv, _, rfl⟩⟩
  | @under cs n v _ hv ih =>
    obtain ⟨⟨w, hw, r, rfl⟩, _⟩ := ih
    exact ⟨⟨w, hw, _, rfl⟩, ⟨v, hv, digitChar w :: r ++ ['_'], by simp⟩⟩

theorem mem_takeWhile_true {p : Char → Bool} {l : List Char} {c : Char} (h : c ∈ l.takeWhile p) : p c = true := by
  induction l with
  | nil => cases h
  | cons x l ih =>
    rw [List.takeWhile_cons] at h
    split at h
    · rename_i hx
      rcases List.mem_cons.mp h with rfl | h
      · exact hx
      · exact ih h
    · cases h

theorem strip_split (s : List Char) : ∃ a b, s = a ++ strip s ++ b ∧ (∀ c ∈ a, isWs c = true) ∧ ∀ c ∈ b, isWs c = true := by
  refine ⟨s.takeWhile isWs, ((s.dropWhile isWs).reverse.takeWhile isWs).reverse, ?_, ?_, ?_⟩
  · unfold strip
    rw [List.append_assoc, ← List.reverse_append, List.takeWhile_append_dropWhile, List.reverse_reverse,
      List.takeWhile_append_dropWhile]
  · intro c hc; exact mem_takeWhile_true hc
  · intro c hc
    have : c ∈ (s.dropWhile isWs).reverse.takeWhile isWs := by simpa using hc
    exact mem_takeWhile_true this

theorem dropWhile_blank (p : Char → Bool) (a t : List Char) (ha : ∀ c ∈ a, p c = true) : (a ++ t).dropWhile p = t.dropWhile p := by
  induction a with
  | nil => rfl
  | cons x a ih =>
    rw [List.cons_append, List.dropWhile_cons_of_pos (ha x (by simp))]
    exact ih fun c hc => ha c (by simp [hc])

theorem strip_eq (a t b : List Char) (ha : ∀ c ∈ a, isWs c = true) (hb : ∀ c ∈ b, isWs c = true)
    (h1 : ∃ c r, t = c :: r ∧ isWs c = false) (h2 : ∃ c r, t = r ++ [c] ∧ isWs c = false) : strip (a ++ t ++ b) = t := by
  obtain ⟨c, r, rfl, hc⟩ := h1
  obtain ⟨d, q, hq, hd⟩ := h2
  unfold strip
  rw [List.append_assoc, dropWhile_blank isWs a _ ha, List.cons_append, List.dropWhile_cons_of_neg (by simp [hc]), ← List.cons_append, hq]
  rw [List.reverse_append, dropWhile_blank isWs b.reverse _ (by intro c hc; exact hb c (by simpa using hc)),
    List.reverse_append, List.reverse_singleton, List.singleton_append, List.dropWhile_cons_of_neg (by simp [hd])]
  simp

/-- **C31, octaves**: the texts accepted after the pitch class are exactly the signed decimal numerals with single underscores between
digits, surrounded by any white space; they are read as the number they write, and every other text is a ValueError. -/
theorem C31_octave_text (s : List Char) (o : Int) :
    (pyInt s = .ok o ↔ ∃ a t b, s = a ++ t ++ b ∧ (∀ c ∈ a, Blank c) ∧ (∀ c ∈ b, Blank c) ∧ Signed t o) ∧
    ((∃ o, pyInt s = .ok o) ∨ pyInt s = .error .valueError) := by
  refine ⟨⟨?_, ?_⟩, ?_⟩
  · intro h
    obtain ⟨a, b, hs, ha, hb⟩ := strip_split s
    refine ⟨a, strip s, b, hs, fun c hc => (isWs_iff c).mp (ha c hc), fun c hc => (isWs_iff c).mp (hb c hc), ?_⟩
    unfold pyInt at h
    generalize strip s = t at h
    split at h
    · split at h
      · rename_i n hn
        cases h
        exact .minus ((digits_iff _ _).mp hn)
      · cases h
    · split at h
      · rename_i n hn
        cases h
        exact .plus ((digits_iff _ _).mp hn)
      · cases h
    · split at h
      · rename_i n hn
        cases h
        exact .plain ((digits_iff _ _).mp hn)
      · cases h
  · rintro ⟨a, t, b, rfl, ha, hb, ht⟩
    have ha' : ∀ c ∈ a, isWs c = true := fun c hc => (isWs_iff c).mpr (ha c hc)
    have hb' : ∀ c ∈ b, isWs c = true := fun c hc => (isWs_iff c).mpr (hb c hc)
    cases ht with
    | @plain cs n h =>
      obtain ⟨⟨v, hv, r, hr⟩, ⟨w, hw, q, hq⟩⟩ := numeral_ends h
      unfold pyInt
      rw [strip_eq a t b ha' hb' ⟨_, r, hr, (digitChar_facts hv).2.1⟩ ⟨_, q, hq, (digitChar_facts hw).2.1⟩]
      have hd := (digits_iff t n).mpr h
      split
      · simp only [List.cons.injEq] at hr
        exact absurd hr.1.symm (digitChar_facts hv).2.2.1
      · simp only [List.cons.injEq] at hr
        exact absurd hr.1.symm (digitChar_facts hv).2.2.2.1
      · rw [hd]
    | @plus cs n h =>
      obtain ⟨_, ⟨w, hw, q, hq⟩⟩ := numeral_ends h
      unfold pyInt
      rw [strip_eq a ('+' :: cs) b ha' hb' ⟨_, cs, rfl, rfl⟩ ⟨_, '+' :: q, by rw [hq]; rfl, (digitChar_facts hw).2.1⟩]
      simp only [(digits_iff cs n).mpr h]
    | @minus cs n h =>
      obtain ⟨_, ⟨w, hw, q, hq⟩⟩ := numeral_ends h
      unfold pyInt
      rw [strip_eq a ('-' :: cs) b ha' hb' ⟨_, cs, rfl, rfl⟩ ⟨_, '-' :: q, by rw [hq]; rfl, (digitChar_facts hw).2.1⟩]
      simp only [(digits_iff cs n).mpr h]
  · unfold pyInt
    split <;> split <;> simp

example : midiToNote 69 = "A5".toList := by decide +kernel
example : midiToNote (-1) = "B-1".toList ∧ midiToNote 127 = "G10".toList := by decide +kernel
example : noteToMidi "F#3".toList = .ok 42 := rfl
example : noteToMidi " 4".toList = .error .keyError ∧ noteToMidi "C +0_4 ".toList = .ok 48 := ⟨rfl, rfl⟩

end Zounds.Midi
