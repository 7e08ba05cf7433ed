import Mathlib.Tactic.Linarith
import Mathlib.Tactic.NormNum
import Mathlib.Tactic.Ring
import Mathlib.Data.List.Induction
import Mathlib.Data.List.GetD
import Mathlib.Data.Rat.Encodable
import Verif.Model.Browser
import Verif.Props.FloatRange
import Verif.Props.WebApp
import Verif.Props.Persist

namespace Zounds.Browser
open Zounds

/-! ## C341: the console -/

section console
variable {F : Type}

/-- How many commands a history of the page sends. -/
def enters (es : List (Event F)) : Nat := es.countP fun e => match e with | .enter => true | _ => false

/-- The answer an event is, with the number of its request. -/
def answerOf : Event F → Option (Nat × Answer F)
  | .answer n a => some (n, a)
  | _ => none

/-- The answers of a history of the page, in order of arrival. -/
def answers (es : List (Event F)) : List (Nat × Answer F) := es.filterMap answerOf

/-- Only requests that were sent are answered, and each at most once. -/
def Proper (es : List (Event F)) : Prop :=
  ∀ pre n a post, es = pre ++ .answer n a :: post → n < enters pre ∧ ∀ b, (n, b) ∉ answers pre

theorem Proper.prefix {es : List (Event F)} {e : Event F} (h : Proper (es ++ [e])) : Proper es := by
  intro pre n a post he
  exact h pre n a (post ++ [e]) (by rw [he]; simp)

theorem run_append (c : Console F) (es fs : List (Event F)) : c.run (es ++ fs) = (c.run es).run fs := by
  simp [Console.run, List.foldl_append]

theorem run_snoc (c : Console F) (es : List (Event F)) (e : Event F) : c.run (es ++ [e]) = (c.run es).step e := by
  simp [Console.run, List.foldl_append]

theorem answers_snoc (es : List (Event F)) (e : Event F) : answers (es ++ [e]) = answers es ++ (answerOf e).toList := by
  unfold answers
  rw [List.filterMap_append]
  cases h : answerOf e <;> simp [h]

theorem enters_snoc (es : List (Event F)) (e : Event F) : enters (es ++ [e]) = enters es + enters [e] := by
  simp [enters, List.countP_append]

/-- What the console holds after a proper history. -/
structure Holds (c : Console F) (es : List (Event F)) : Prop where
  sent : c.sent.length = enters es
  waiting : ∀ n, n ∈ c.waiting ↔ n < enters es ∧ ∀ b, (n, b) ∉ answers es
  nodup : c.waiting.Nodup
  history : c.history = ((answers es).map fun p => c.sent.getD p.1 "").filter (· ≠ "")
  output : c.output = (answers es).flatMap fun p => .statement (c.sent.getD p.1 "") :: p.2.lines
  published : c.published = (answers es).flatMap fun p => p.2.features
  position : c.pos ≤ c.history.length
  range : ∀ p ∈ answers es, p.1 < enters es

theorem holds_run (es : List (Event F)) (hp : Proper es) : Holds (Console.start.run es) es := by
  induction es using List.reverseRecOn with
  | nil => constructor <;> simp [Console.start, Console.run, enters, answers]
  | append_singleton es e ih =>
    have h := ih hp.prefix
    rw [run_snoc]
    obtain ⟨c, hc⟩ : ∃ c, c = Console.start.run es := ⟨_, rfl⟩
    rw [← hc] at h ⊢
    cases e with
    | type t =>
      have e1 : answers (es ++ [Event.type t]) = answers es := by rw [answers_snoc]; simp [answerOf]
      have e2 : enters (es ++ [Event.type t]) = enters es := by rw [enters_snoc]; simp [enters]
      constructor <;> simp only [Console.step, e1, e2]
      exacts [h.sent, h.waiting, h.nodup, h.history, h.output, h.published, h.position, h.range]
    | up =>
      have e1 : answers (es ++ [Event.up]) = answers es := by rw [answers_snoc]; simp [answerOf]
      have e2 : enters (es ++ [Event.up]) = enters es := by rw [enters_snoc]; simp [enters]
      by_cases hl : c.pos < c.history.length
      · constructor <;> simp only [Console.step, hl, if_true, e1, e2]
        exacts [h.sent, h.waiting, h.nodup, h.history, h.output, h.published, hl, h.range]
      · constructor <;> simp only [Console.step, hl, if_false, e1, e2]
        exacts [h.sent, h.waiting, h.nodup, h.history, h.output, h.published, h.position, h.range]
    | down =>
      have e1 : answers (es ++ [Event.down]) = answers es := by rw [answers_snoc]; simp [answerOf]
      have e2 : enters (es ++ [Event.down]) = enters es := by rw [enters_snoc]; simp [enters]
      have hq := h.position
      by_cases hl : 0 < c.pos
      · constructor <;> simp only [Console.step, hl, if_true, e1, e2]
        exacts [h.sent, h.waiting, h.nodup, h.history, h.output, h.published, by omega, h.range]
      · constructor <;> simp only [Console.step, hl, if_false, e1, e2]
        exacts [h.sent, h.waiting, h.nodup, h.history, h.output, h.published, h.position, h.range]
    | enter =>
      have e1 : answers (es ++ [Event.enter]) = answers es := by rw [answers_snoc]; simp [answerOf]
      have e2 : enters (es ++ [Event.enter]) = enters es + 1 := by rw [enters_snoc]; simp [enters]
      have hg : ∀ p ∈ answers es, (c.sent ++ [c.input]).getD p.1 "" = c.sent.getD p.1 "" := by
        intro p hp'
        have := h.range p hp'
        simp only [List.getD_eq_getElem?_getD]
        rw [List.getElem?_append_left (by rw [h.sent]; exact this)]
      constructor <;> simp only [Console.step, e1, e2]
      · simp [h.sent]
      · intro n
        rw [List.mem_append, h.waiting n, List.mem_singleton, h.sent]
        constructor
        · rintro (⟨h1, h2⟩ | rfl)
          · exact ⟨by omega, h2⟩
          · refine ⟨by omega, fun b hb => ?_⟩
            have := h.range _ hb
            simp only at this
            omega
        · rintro ⟨h1, h2⟩
          by_cases hn : n = enters es
          · exact Or.inr hn
          · exact Or.inl ⟨by omega, h2⟩
      · rw [List.nodup_append]
        refine ⟨h.nodup, by simp, ?_⟩
        intro a ha b hb
        rw [List.mem_singleton, h.sent] at hb
        have := ((h.waiting a).1 ha).1
        omega
      · rw [h.history]
        congr 1
        exact List.map_congr_left fun p hp' => (hg p hp').symm
      · rw [h.output]
        exact List.flatMap_congr fun p hp' => by rw [hg p hp']
      · exact h.published
      · exact h.position
      · intro p hp'
        have := h.range p hp'
        omega
    | answer n a =>
      have e1 : answers (es ++ [Event.answer n a]) = answers es ++ [(n, a)] := by rw [answers_snoc]; simp [answerOf]
      have e2 : enters (es ++ [Event.answer n a]) = enters es := by rw [enters_snoc]; simp [enters]
      obtain ⟨hn, hb⟩ := hp es n a [] rfl
      have hw : n ∈ c.waiting := (h.waiting n).2 ⟨hn, hb⟩
      constructor <;> simp only [Console.step, hw, if_true, e1, e2]
      · exact h.sent
      · intro k
        rw [List.Nodup.mem_erase_iff h.nodup, h.waiting k]
        constructor
        · rintro ⟨h1, h2, h3⟩
          refine ⟨h2, fun b hk => ?_⟩
          rw [List.mem_append, List.mem_singleton] at hk
          rcases hk with hk | hk
          · exact h3 b hk
          · exact h1 (congrArg Prod.fst hk)
        · rintro ⟨h1, h2⟩
          refine ⟨?_, h1, fun b hk => h2 b (List.mem_append_left _ hk)⟩
          rintro rfl
          exact h2 a (by simp)
      · exact h.nodup.erase n
      · rw [h.history, List.map_append, List.filter_append]
        unfold pushItem
        simp only [List.map_cons, List.map_nil]
        generalize c.sent.getD n "" = s
        by_cases hz : s = ""
        · simp [hz]
        · simp [hz]
      · rw [h.output, List.flatMap_append]; simp
      · rw [h.published, List.flatMap_append]; simp
      · exact Nat.zero_le _
      · intro p hp'
        rw [List.mem_append, List.mem_singleton] at hp'
        rcases hp' with hp' | rfl
        · exact h.range p hp'
        · exact hn

/-- **C341** (what is kept): after any history of the page in which requests are answered at most once, in any order, the console's history is the non-empty commands
answered so far, in order of their answers; the output is, for each answer in order, the command it answers and then its result or its error; and the features
published are those of the answers. -/
theorem C341_record (es : List (Event F)) (hp : Proper es) :
    let c := Console.start.run es
    c.sent.length = enters es ∧ (∀ p ∈ answers es, p.1 < c.sent.length) ∧
    c.history = ((answers es).map fun p => c.sent.getD p.1 "").filter (· ≠ "") ∧
    c.output = ((answers es).flatMap fun p => .statement (c.sent.getD p.1 "") :: p.2.lines) ∧
    c.published = ((answers es).flatMap fun p => p.2.features) ∧ c.pos ≤ c.history.length := by
  have h := holds_run es hp
  exact ⟨h.sent, fun p hp' => h.sent ▸ h.range p hp', h.history, h.output, h.published, h.position⟩

theorem sent_step (c : Console F) (e : Event F) : ∃ l, (c.step e).sent = c.sent ++ l := by
  cases e with
  | type t => exact ⟨[], by simp [Console.step]⟩
  | up => refine ⟨[], ?_⟩; unfold Console.step; split_ifs <;> simp
  | down => refine ⟨[], ?_⟩; unfold Console.step; split_ifs <;> simp
  | enter => exact ⟨[c.input], rfl⟩
  | answer n a => refine ⟨[], ?_⟩; simp only [Console.step]; split_ifs <;> simp

theorem sent_run (c : Console F) (es : List (Event F)) : ∃ l, (c.run es).sent = c.sent ++ l := by
  induction es using List.reverseRecOn with
  | nil => exact ⟨[], by simp [Console.run]⟩
  | append_singleton es e ih =>
    obtain ⟨l, hl⟩ := ih
    obtain ⟨k, hk⟩ := sent_step (c.run es) e
    exact ⟨l ++ k, by rw [run_snoc, hk, hl, List.append_assoc]⟩

/-- **C341** (what is sent): the command sent by pressing enter is the text of the field at that moment, and the field is then empty. -/
theorem C341_sent (pre post : List (Event F)) (hp : Proper (pre ++ .enter :: post)) :
    (Console.start.run (pre ++ .enter :: post)).sent[enters pre]? = some (Console.start.run pre).input ∧
    (Console.start.run (pre ++ [.enter])).input = "" := by
  have hpre : Proper pre := by
    intro a n b c h
    exact hp a n b (c ++ .enter :: post) (by rw [h]; simp)
  have hs := (holds_run pre hpre).sent
  refine ⟨?_, by rw [run_snoc]; rfl⟩
  rw [run_append]
  obtain ⟨l, hl⟩ := sent_run ((Console.start.run pre).step .enter) post
  have e : (Console.start.run pre).run (.enter :: post) = ((Console.start.run pre).step .enter).run post := rfl
  have e2 : ((Console.start.run pre).step .enter).sent = (Console.start.run pre).sent ++ [(Console.start.run pre).input] := rfl
  rw [e, hl, e2, ← hs]
  simp

/-- **C341** (in order): if the answers come in the order of the commands, the history is the non-empty commands answered, in the order they were entered. -/
theorem C341_in_order (es : List (Event F)) (hp : Proper es) (m : Nat) (h : (answers es).map (·.1) = List.range m) :
    (Console.start.run es).history = ((Console.start.run es).sent.take m).filter (· ≠ "") := by
  have hh := holds_run es hp
  obtain ⟨c, hc⟩ : ∃ c, c = Console.start.run es := ⟨_, rfl⟩
  rw [← hc] at hh ⊢
  rw [hh.history]
  congr 1
  have e : ((answers es).map fun p => c.sent.getD p.1 "") = ((answers es).map (·.1)).map fun n => c.sent.getD n "" := by simp
  have hm : m ≤ c.sent.length := by
    rcases Nat.eq_zero_or_pos m with rfl | hm
    · exact Nat.zero_le _
    · have : m - 1 ∈ (answers es).map (·.1) := by rw [h]; exact List.mem_range.2 (by omega)
      obtain ⟨p, hp1, hp2⟩ := List.mem_map.1 this
      have := hh.range p hp1
      rw [hh.sent]; omega
  rw [e, h]
  apply List.ext_getElem
  · simp [hm]
  · intro i h1 h2
    simp only [List.length_map, List.length_range] at h1
    simp only [List.getElem_map, List.getElem_range, List.getElem_take]
    rw [List.getD_eq_getElem _ _ (by omega)]

theorem ups (c : Console F) (k : Nat) (h0 : c.pos = 0) (hk : 0 < k) (hn : c.history ≠ []) :
    c.run (List.replicate k .up) = { c with pos := min k c.history.length, input := c.history.getD (c.history.length - min k c.history.length) "" } := by
  have hl : 0 < c.history.length := List.length_pos_iff.2 hn
  induction k with
  | zero => omega
  | succ k ih =>
    rw [List.replicate_succ', run_snoc]
    rcases Nat.eq_zero_or_pos k with rfl | hk'
    · have e : c.run (List.replicate 0 .up) = c := rfl
      rw [e]
      simp only [Console.step, h0, hl, if_true, fetchItem]
      have : min (0 + 1) c.history.length = 1 := by omega
      rw [this]
    · rw [ih hk']
      by_cases hb : k < c.history.length
      · have e1 : min k c.history.length = k := by omega
        have e2 : min (k + 1) c.history.length = k + 1 := by omega
        simp only [Console.step, e1, e2, hb, if_true, fetchItem]
      · have e1 : min k c.history.length = c.history.length := by omega
        have e2 : min (k + 1) c.history.length = c.history.length := by omega
        simp only [Console.step, e1, e2, lt_irrefl, if_false]

theorem downs (c : Console F) (j : Nat) (h : c.input = c.history.getD (c.history.length - c.pos) "") :
    c.run (List.replicate j .down) = { c with pos := c.pos - j, input := c.history.getD (c.history.length - (c.pos - j)) "" } := by
  induction j with
  | zero =>
    simp only [List.replicate_zero, Nat.sub_zero]
    rw [← h]; rfl
  | succ j ih =>
    rw [List.replicate_succ', run_snoc, ih]
    by_cases hb : 0 < c.pos - j
    · have e : c.pos - j - 1 = c.pos - (j + 1) := by omega
      simp only [Console.step, hb, if_true, fetchItem, e]
    · have e : c.pos - j = c.pos - (j + 1) := by omega
      have e0 : c.pos - (j + 1) = 0 := by omega
      simp only [Console.step, hb, if_false]
      rw [e]

/-- **C341** (browsing): `k` times up and then `j` times down show the command that many entries back: the newest one first, stopping at the oldest, and the empty line
after the newest.  Nothing else changes. -/
theorem C341_browse (c : Console F) (k j : Nat) (h0 : c.pos = 0) (hk : 0 < k) (hn : c.history ≠ []) :
    let p := min k c.history.length - j
    c.run (List.replicate k .up ++ List.replicate j .down) =
      { c with pos := p, input := if p = 0 then "" else c.history.reverse.getD (p - 1) "" } := by
  intro p
  have hl : 0 < c.history.length := List.length_pos_iff.2 hn
  rw [run_append, ups c k h0 hk hn, downs _ j rfl]
  show Console.mk _ _ _ _ _ _ _ = Console.mk _ _ _ _ _ _ _
  congr 1
  show c.history.getD (c.history.length - p) "" = _
  have hp : p ≤ c.history.length := by omega
  by_cases hz : p = 0
  · rw [hz, if_pos rfl]; simp [List.getD_eq_getElem?_getD]
  · rw [if_neg hz]
    rw [List.getD_eq_getElem _ _ (by omega), List.getD_eq_getElem _ _ (by rw [List.length_reverse]; omega), List.getElem_reverse]
    congr 1
    omega

/-- **C341** (an answer interrupts): an answer leaves the text of the field alone but starts browsing anew: the next press of up shows the newest command of the
history, wherever the reader was. -/
theorem C341_interrupts (c : Console F) (n : Nat) (a : Answer F) (hn : n ∈ c.waiting) (hc : c.sent.getD n "" ≠ "") :
    (c.step (.answer n a)).input = c.input ∧ (c.run [.answer n a, .up]).input = c.sent.getD n "" := by
  constructor
  · simp [Console.step, hn]
  · simp only [Console.run, Console.step, hn, if_true, List.foldl_cons, List.foldl_nil]
    generalize c.sent.getD n "" = s at hc ⊢
    simp [pushItem, hc, fetchItem, List.getD_eq_getElem?_getD]

/-- Two commands, `a` and then `b`; the answer to `b` comes first; then up is pressed. -/
def crossed : List (Event F) :=
  [.type "a", .enter, .type "b", .enter, .answer 1 (.done "2" none), .answer 0 (.failed "no"), .up]

/-- Refuted: that up brings back the command entered last.  With the answers crossed it is the one entered first. -/
theorem C341_refuted : Proper (crossed : List (Event F)) ∧ (Console.start.run (crossed : List (Event F))).sent = ["a", "b"] ∧
    (Console.start.run (crossed : List (Event F))).history = ["b", "a"] ∧ (Console.start.run (crossed : List (Event F))).input = "a" ∧
    (Console.start.run (crossed : List (Event F))).output = [.statement "b", .result "2", .statement "a", .error "no"] := by
  refine ⟨?_, by rfl, by rfl, by rfl, by rfl⟩
  intro pre n a post h
  unfold crossed at h
  match pre, h with
  | [], h => simp at h
  | [_], h => simp at h
  | [_, _], h => simp at h
  | [_, _, _], h => simp at h
  | [x0, x1, x2, x3], h =>
    simp only [List.cons_append, List.nil_append, List.cons.injEq, Event.answer.injEq] at h
    obtain ⟨rfl, rfl, rfl, rfl, ⟨rfl, rfl⟩, -⟩ := h
    exact ⟨by simp [enters], by simp [answers, answerOf]⟩
  | [x0, x1, x2, x3, x4], h =>
    simp only [List.cons_append, List.nil_append, List.cons.injEq, Event.answer.injEq] at h
    obtain ⟨rfl, rfl, rfl, rfl, rfl, ⟨rfl, rfl⟩, -⟩ := h
    exact ⟨by simp [enters], by simp [answers, answerOf]⟩
  | [_, _, _, _, _, _], h => simp at h
  | _ :: _ :: _ :: _ :: _ :: _ :: _ :: r, h => simp at h

example := C341_record (crossed : List (Event Nat)) C341_refuted.1
/-- Two commands and their answers, in order. -/
def inOrder : List (Event F) := [.type "a", .enter, .type "b", .enter, .answer 0 .lost, .answer 1 (.done "2" none)]

theorem inOrder_proper : Proper (inOrder : List (Event F)) := by
  intro pre n a post h
  unfold inOrder at h
  match pre, h with
  | [], h => simp at h
  | [_], h => simp at h
  | [_, _], h => simp at h
  | [_, _, _], h => simp at h
  | [x0, x1, x2, x3], h =>
    simp only [List.cons_append, List.nil_append, List.cons.injEq, Event.answer.injEq] at h
    obtain ⟨rfl, rfl, rfl, rfl, ⟨rfl, rfl⟩, -⟩ := h
    exact ⟨by simp [enters], by simp [answers, answerOf]⟩
  | [x0, x1, x2, x3, x4], h =>
    simp only [List.cons_append, List.nil_append, List.cons.injEq, Event.answer.injEq] at h
    obtain ⟨rfl, rfl, rfl, rfl, rfl, ⟨rfl, rfl⟩, -⟩ := h
    exact ⟨by simp [enters], by simp [answers, answerOf]⟩
  | _ :: _ :: _ :: _ :: _ :: _ :: r, h => simp at h

example := C341_in_order (inOrder : List (Event Nat)) inOrder_proper 2 (by rfl)
example := C341_sent (F := Nat) [.type "a", .enter, .type "b"] [.answer 0 .lost, .answer 1 (.done "2" none)] inOrder_proper
example := C341_browse (⟨["a", "b", "c"], 0, "x", ["a", "b", "c"], [], [], []⟩ : Console Nat) 5 1 rfl (by decide) (by simp)
example := C341_interrupts (⟨["a"], 1, "a", ["a", "b"], [1], [], []⟩ : Console Nat) 1 .lost (by simp) (by decide)

end console

/-! ## C342: results one at a time -/

/-- A move: `1` for next, `-1` for previous. -/
def moveOf : Turn → Option Int
  | .next => some 1
  | .previous => some (-1)
  | .arrive _ => none

/-- The moves of a history. -/
def movesOf (ts : List Turn) : List Int := ts.filterMap moveOf

/-- The slice an arrival is for. -/
def arrivalOf : Turn → Option Nat
  | .arrive k => some k
  | _ => none

/-- The arrivals of a history. -/
def arrivals (ts : List Turn) : List Nat := ts.filterMap arrivalOf

/-- Only slices that have been made arrive, and each at most once. -/
def Timely (ts : List Turn) : Prop := ∀ pre k post, ts = pre ++ .arrive k :: post → k ≤ (movesOf pre).length ∧ k ∉ arrivals pre

/-- The result on display after some moves: the first one, and around the circle from there. -/
def resultAfter (n : Nat) (moves : List Int) : Nat := (moves.sum % n).toNat

theorem crun_snoc (c : Carousel) (ts : List Turn) (t : Turn) : c.run (ts ++ [t]) = (c.run ts).step t := by
  simp [Carousel.run, List.foldl_append]

theorem crun_append (c : Carousel) (ts us : List Turn) : c.run (ts ++ us) = (c.run ts).run us := by
  simp [Carousel.run, List.foldl_append]

theorem Timely.prefix {ts us : List Turn} (h : Timely (ts ++ us)) : Timely ts := by
  intro pre n post he
  exact h pre n (post ++ us) (by rw [he]; simp)

/-- The first display. -/
def opened (n : Nat) : Carousel := Carousel.render ⟨n, 0, [], []⟩

structure Turns (n : Nat) (c : Carousel) (ts : List Turn) : Prop where
  size : c.n = n
  position : c.position = (movesOf ts).sum % n
  slices : c.slices = (List.range ((movesOf ts).length + 1)).map fun k => ⟨resultAfter n ((movesOf ts).take k), decide (k ∈ arrivals ts)⟩

theorem emod_next (s : Int) (n : Nat) (hn : 0 < n) : (if s % n + 1 ≥ n then 0 else s % n + 1) = (s + 1) % (n : Int) := by
  have h0 := Int.emod_nonneg s (show (n : Int) ≠ 0 by omega)
  have h1 := Int.emod_lt_of_pos s (show (0 : Int) < n by omega)
  have e : (s + 1) % (n : Int) = (s % n + 1) % n := by rw [Int.emod_add_emod]
  rw [e]
  by_cases h : s % n + 1 ≥ n
  · have : s % (n : Int) + 1 = n := by omega
    rw [if_pos h, this, Int.emod_self]
  · rw [if_neg h, Int.emod_eq_of_lt (a := s % (n : Int) + 1) (by omega) (by omega)]

theorem emod_previous (s : Int) (n : Nat) (hn : 0 < n) : (if s % n - 1 < 0 then (n : Int) - 1 else s % n - 1) = (s + -1) % (n : Int) := by
  have h0 := Int.emod_nonneg s (show (n : Int) ≠ 0 by omega)
  have h1 := Int.emod_lt_of_pos s (show (0 : Int) < n by omega)
  have e : (s + -1) % (n : Int) = (s % n - 1) % n := by rw [Int.emod_sub_emod]; congr 1
  rw [e]
  by_cases h : s % (n : Int) - 1 < 0
  · have h2 : s % (n : Int) = 0 := by omega
    rw [if_pos h, h2]
    have : (0 - 1 : Int) % n = (0 - 1 + n) % n := by simp
    rw [this, Int.emod_eq_of_lt (by omega) (by omega)]
    omega
  · rw [if_neg h, Int.emod_eq_of_lt (a := s % (n : Int) - 1) (by omega) (by omega)]

theorem movesOf_snoc (ts : List Turn) (t : Turn) : movesOf (ts ++ [t]) = movesOf ts ++ (moveOf t).toList := by
  unfold movesOf
  rw [List.filterMap_append]
  cases h : moveOf t <;> simp [h]

theorem arrivals_snoc (ts : List Turn) (t : Turn) : arrivals (ts ++ [t]) = arrivals ts ++ (arrivalOf t).toList := by
  unfold arrivals
  rw [List.filterMap_append]
  cases h : arrivalOf t <;> simp [h]

theorem arrivals_le {ts : List Turn} (h : Timely ts) : ∀ k ∈ arrivals ts, k ≤ (movesOf ts).length := by
  intro k hk
  obtain ⟨t, ht, hk'⟩ := List.mem_filterMap.1 hk
  have : t = .arrive k := by cases t <;> simp_all [arrivalOf]
  subst this
  obtain ⟨pre, post, he⟩ := List.append_of_mem ht
  have h1 := (h pre k post he).1
  have h2 : (movesOf pre).length ≤ (movesOf ts).length := by
    rw [he]; unfold movesOf; rw [List.filterMap_append, List.length_append]; omega
  omega

theorem slices_move (n : Nat) (ms : List Int) (a : Nat → Bool) (d : Int) (ha : a ((ms ++ [d]).length) = false) :
    (List.range ((ms ++ [d]).length + 1)).map (fun k => (⟨resultAfter n ((ms ++ [d]).take k), a k⟩ : Slice)) =
      ((List.range (ms.length + 1)).map fun k => (⟨resultAfter n (ms.take k), a k⟩ : Slice)) ++ [⟨resultAfter n (ms ++ [d]), false⟩] := by
  have e : (ms ++ [d]).length = ms.length + 1 := by simp
  rw [e] at ha ⊢
  rw [List.range_succ, List.map_append]
  congr 1
  · apply List.map_congr_left
    intro k hk
    rw [List.mem_range] at hk
    rw [List.take_append_of_le_length (by omega)]
  · have : (ms ++ [d]).take (ms.length + 1) = ms ++ [d] := List.take_of_length_le (by simp)
    simp [this, ha]

theorem turns_run (n : Nat) (hn : 0 < n) (ts : List Turn) (ht : Timely ts) : Turns n ((opened n).run ts) ts := by
  induction ts using List.reverseRecOn with
  | nil => constructor <;> simp [opened, Carousel.run, Carousel.render, movesOf, arrivals, resultAfter, List.range_succ]
  | append_singleton ts t ih =>
    have h := ih ht.prefix
    rw [crun_snoc]
    obtain ⟨c, hc⟩ : ∃ c, c = (opened n).run ts := ⟨_, rfl⟩
    rw [← hc] at h ⊢
    have hle := arrivals_le ht.prefix
    have hout : decide ((movesOf ts).length + 1 ∈ arrivals ts) = false := by
      rw [decide_eq_false_iff_not]
      intro hm
      have := hle _ hm
      omega
    cases t with
    | next =>
      have em : movesOf (ts ++ [.next]) = movesOf ts ++ [1] := by rw [movesOf_snoc]; rfl
      have ea : arrivals (ts ++ [.next]) = arrivals ts := by rw [arrivals_snoc]; simp [arrivalOf]
      have ep : (if c.position + 1 ≥ (c.n : Int) then 0 else c.position + 1) = (movesOf ts ++ [1]).sum % (n : Int) := by
        rw [h.position, h.size, emod_next _ n hn]; simp
      constructor
      · exact h.size
      · rw [em]; exact ep
      · rw [em, ea, slices_move n _ (fun k => decide (k ∈ arrivals ts)) 1 (by simpa using hout)]
        simp only [Carousel.step, Carousel.render]
        rw [h.slices, ep]
        rfl
    | previous =>
      have em : movesOf (ts ++ [.previous]) = movesOf ts ++ [-1] := by rw [movesOf_snoc]; rfl
      have ea : arrivals (ts ++ [.previous]) = arrivals ts := by rw [arrivals_snoc]; simp [arrivalOf]
      have ep : (if c.position - 1 < 0 then (c.n : Int) - 1 else c.position - 1) = (movesOf ts ++ [-1]).sum % (n : Int) := by
        rw [h.position, h.size, emod_previous _ n hn]; simp
      constructor
      · exact h.size
      · rw [em]; exact ep
      · rw [em, ea, slices_move n _ (fun k => decide (k ∈ arrivals ts)) (-1) (by simpa using hout)]
        simp only [Carousel.step, Carousel.render]
        rw [h.slices, ep]
        rfl
    | arrive k =>
      have em : movesOf (ts ++ [.arrive k]) = movesOf ts := by rw [movesOf_snoc]; simp [moveOf]
      have ea : arrivals (ts ++ [.arrive k]) = arrivals ts ++ [k] := by rw [arrivals_snoc]; rfl
      obtain ⟨hk, hnot⟩ := ht ts k [] rfl
      have hs : c.slices[k]? = some ⟨resultAfter n ((movesOf ts).take k), false⟩ := by
        rw [h.slices, List.getElem?_map, List.getElem?_range (by omega)]
        simp [hnot]
      have hstep : c.step (.arrive k) = { c with slices := c.slices.set k ⟨resultAfter n ((movesOf ts).take k), true⟩, shown := c.shown ++ [k] } := by
        simp [Carousel.step, hs, load]
      rw [hstep]
      constructor
      · exact h.size
      · rw [em]; exact h.position
      · rw [em, ea]
        show c.slices.set k _ = _
        rw [h.slices]
        apply List.ext_getElem
        · simp
        · intro i h1 h2
          rw [List.getElem_set]
          simp only [List.getElem_map, List.getElem_range]
          by_cases hi : k = i
          · subst hi; simp
          · have : i ≠ k := fun h => hi h.symm
            simp [hi, this]

theorem make_some (n : Nat) (c : Carousel) (h : Carousel.make n = .ok c) : 0 < n ∧ c = opened n := by
  unfold Carousel.make at h
  split_ifs at h with hz
  cases h
  exact ⟨by omega, rfl⟩

/-- **C342** (which result): after any moves, the result on display is the number of times next was pressed less the number of times previous was, around the circle of
results.  What space plays is its sound, or nothing while that has not arrived. -/
theorem C342_current (n : Nat) (c : Carousel) (hc : Carousel.make n = .ok c) (ts : List Turn) (ht : Timely ts) :
    (c.run ts).position = (movesOf ts).sum % n ∧
    (c.run ts).play = if (movesOf ts).length ∈ arrivals ts then some (resultAfter n (movesOf ts)) else none := by
  obtain ⟨hn, rfl⟩ := make_some n c hc
  have h := turns_run n hn ts ht
  refine ⟨h.position, ?_⟩
  unfold Carousel.play
  rw [h.slices, List.range_succ, List.map_append]
  simp [heard]

/-- No results: the page fails, and nothing listens to the keys. -/
theorem C342_none : Carousel.make 0 = .error .typeError := rfl

theorem shown_arrivals (c : Carousel) (us : List Turn) (hu : ∀ t ∈ us, ∃ k, t = .arrive k) (pre : List Turn) (n : Nat) (hn : 0 < n) (hc : c = (opened n).run pre)
    (ht : Timely (pre ++ us)) : (c.run us).shown = c.shown ++ arrivals us := by
  induction us using List.reverseRecOn with
  | nil => simp [Carousel.run, arrivals]
  | append_singleton us t ih =>
    obtain ⟨k, rfl⟩ := hu t (by simp)
    have ht' : Timely (pre ++ us) := by rw [← List.append_assoc] at ht; exact ht.prefix
    have ih' := ih (fun t ht => hu t (by simp [ht])) ht'
    have hT := turns_run n hn (pre ++ us) ht'
    rw [crun_append, ← hc] at hT
    obtain ⟨hk, hnot⟩ := ht (pre ++ us) k [] (by simp)
    have hs : (c.run us).slices[k]? = some ⟨resultAfter n ((movesOf (pre ++ us)).take k), false⟩ := by
      rw [hT.slices, List.getElem?_map, List.getElem?_range (by omega)]
      simp [hnot]
    rw [crun_snoc, arrivals_snoc]
    simp [Carousel.step, hs, arrivalOf, ih']

/-- **C342** (which images): after a move, and at the start, the images on display are those of the results whose sound and image arrive from then on, in order of arrival,
whichever result they belong to; a click on an image plays that image's result. -/
theorem C342_images (n : Nat) (c : Carousel) (hc : Carousel.make n = .ok c) (pre us : List Turn) (hpre : pre = [] ∨ ∃ ps t, pre = ps ++ [t] ∧ moveOf t ≠ none)
    (hu : ∀ t ∈ us, ∃ k, t = .arrive k) (ht : Timely (pre ++ us)) :
    (c.run (pre ++ us)).shown = arrivals us ∧
    ∀ j k, (arrivals us)[j]? = some k → (c.run (pre ++ us)).click j = some (resultAfter n ((movesOf pre).take k)) := by
  obtain ⟨hn, rfl⟩ := make_some n c hc
  have h0 : ((opened n).run pre).shown = [] := by
    rcases hpre with rfl | ⟨ps, t, rfl, hm⟩
    · rfl
    · rw [crun_snoc]
      cases t with
      | next => rfl
      | previous => rfl
      | arrive k => exact absurd rfl hm
  have hs : ((opened n).run (pre ++ us)).shown = arrivals us := by
    rw [crun_append, shown_arrivals _ us hu pre n hn rfl ht, h0, List.nil_append]
  refine ⟨hs, fun j k hj => ?_⟩
  have hT := turns_run n hn (pre ++ us) ht
  have hmv : movesOf (pre ++ us) = movesOf pre := by
    unfold movesOf
    rw [List.filterMap_append]
    have : us.filterMap moveOf = [] := by
      rw [List.filterMap_eq_nil_iff]
      intro t ht
      obtain ⟨k, rfl⟩ := hu t ht
      rfl
    rw [this, List.append_nil]
  have hmem : k ∈ arrivals us := List.mem_of_getElem? hj
  have hmem' : k ∈ arrivals (pre ++ us) := by
    unfold arrivals at hmem ⊢
    rw [List.filterMap_append]; exact List.mem_append_right _ hmem
  have hle := arrivals_le ht k hmem'
  unfold Carousel.click
  rw [hs, hj]
  simp only [Option.bind_some]
  rw [hT.slices, List.getElem?_map, List.getElem?_range (by omega)]
  simp [heard, hmem', hmv]

/-- **C342** (patience): if nothing but the result on display arrives after the last move, its image is the only one. -/
theorem C342_patient (n : Nat) (c : Carousel) (hc : Carousel.make n = .ok c) (pre us : List Turn) (hpre : pre = [] ∨ ∃ ps t, pre = ps ++ [t] ∧ moveOf t ≠ none)
    (hu : ∀ t ∈ us, t = .arrive (movesOf pre).length) (hne : us ≠ []) (ht : Timely (pre ++ us)) :
    (c.run (pre ++ us)).shown = [(movesOf pre).length] ∧ (c.run (pre ++ us)).click 0 = some (resultAfter n (movesOf pre)) := by
  obtain ⟨h1, h2⟩ := C342_images n c hc pre us hpre (fun t ht => ⟨_, hu t ht⟩) ht
  have hus : us = [.arrive (movesOf pre).length] := by
    match us, hne with
    | [t], _ => rw [hu t (by simp)]
    | t :: t' :: r, _ =>
      exfalso
      have e1 := hu t (by simp)
      have e2 := hu t' (by simp)
      subst e1; subst e2
      have := (ht (pre ++ [.arrive (movesOf pre).length]) (movesOf pre).length r (by simp)).2
      apply this
      unfold arrivals
      simp [arrivalOf]
  have ha : arrivals us = [(movesOf pre).length] := by rw [hus]; rfl
  refine ⟨by rw [h1, ha], ?_⟩
  rw [h2 0 (movesOf pre).length (by rw [ha]; rfl), List.take_of_length_le (le_refl _)]

theorem timely_late : Timely [.next, .arrive 1, .arrive 0] := by
  intro pre k post h
  match pre, h with
  | [], h => simp at h
  | [x0], h =>
    simp only [List.cons_append, List.nil_append, List.cons.injEq, Turn.arrive.injEq] at h
    obtain ⟨rfl, rfl, -⟩ := h
    decide
  | [x0, x1], h =>
    simp only [List.cons_append, List.nil_append, List.cons.injEq, Turn.arrive.injEq] at h
    obtain ⟨rfl, rfl, rfl, -⟩ := h
    decide
  | [_, _, _], h => simp at h
  | _ :: _ :: _ :: _ :: r, h => simp at h

/-- Refuted: that only the result on display is on display.  If next is pressed before the first result has arrived, its image is added to that of the second one. -/
theorem C342_refuted : Timely [.next, .arrive 1, .arrive 0] ∧ ((opened 5).run [.next, .arrive 1, .arrive 0]).shown = [1, 0] ∧
    ((opened 5).run [.next, .arrive 1, .arrive 0]).play = some 1 ∧ ((opened 5).run [.next, .arrive 1, .arrive 0]).click 1 = some 0 :=
  ⟨timely_late, by decide, by decide, by decide⟩

example := C342_current 5 _ rfl _ timely_late
example := C342_images 5 _ rfl [.next] [.arrive 1, .arrive 0] (Or.inr ⟨[], .next, rfl, by decide⟩) (by simp) timely_late
example := C342_patient 5 _ rfl [.next] [.arrive 1] (Or.inr ⟨[], .next, rfl, by decide⟩) (by simp [movesOf, moveOf]) (by simp)
  (Timely.prefix (us := [.arrive 0]) timely_late)

/-! ## C343: what the keys act on -/

/-- A sound, or results: something to play. -/
def Kind.plays : Kind → Bool
  | .audio => true
  | .results => true
  | _ => false

theorem vrun_snoc (v : Visual) (as : List Arrival) (a : Arrival) : v.run (as ++ [a]) = (v.run as).step a := by
  simp [Visual.run, List.foldl_append]

theorem vrun_append (v : Visual) (as bs : List Arrival) : v.run (as ++ bs) = (v.run as).run bs := by
  simp [Visual.run, List.foldl_append]

/-- The handlers are those of the things on display, and the view can take them all down. -/
structure Wired (v : Visual) : Prop where
  play : v.onPlay = v.area.filter (·.kind.plays)
  previous : v.onPrevious = v.area.filter (·.kind = .results)
  next : v.onNext = v.area.filter (·.kind = .results)
  any : v.onPlay ≠ [] → ∃ w, v.view = some w ∧ w.kind.plays = true
  all : v.onNext ≠ [] → ∃ w, v.view = some w ∧ w.kind = .results

theorem Wired.destroyed {v : Visual} (h : Wired v) :
    (Visual.destroy { v with area := [] }).onPlay = [] ∧ (Visual.destroy { v with area := [] }).onPrevious = [] ∧
    (Visual.destroy { v with area := [] }).onNext = [] ∧ (Visual.destroy { v with area := [] }).waiting = v.waiting ∧
    (Visual.destroy { v with area := [] }).area = [] := by
  have hp := h.any
  have hn := h.all
  have e : v.onPrevious = v.onNext := h.previous.trans h.next.symm
  unfold Visual.destroy
  cases hv : v.view with
  | none =>
    rw [hv] at hp hn
    have h1 : v.onPlay = [] := by
      by_contra hc
      obtain ⟨w, hw, -⟩ := hp hc
      cases hw
    have h2 : v.onNext = [] := by
      by_contra hc
      obtain ⟨w, hw, -⟩ := hn hc
      cases hw
    simp [h1, h2, e]
  | some w =>
    rw [hv] at hp hn
    obtain ⟨kind, f⟩ := w
    have h2 : kind ≠ .results → v.onNext = [] := by
      intro hk
      by_contra hc
      obtain ⟨w, hw, hw2⟩ := hn hc
      cases hw
      exact hk hw2
    have h1 : kind.plays = false → v.onPlay = [] := by
      intro hk
      by_contra hc
      obtain ⟨w, hw, hw2⟩ := hp hc
      cases hw
      rw [hk] at hw2
      cases hw2
    cases kind with
    | image => simp [h1 rfl, h2 (by decide), e]
    | audio => simp [h2 (by decide), e]
    | results => simp
    | other => simp [h1 rfl, h2 (by decide), e]

theorem wired_step (v : Visual) (a : Arrival) (h : Wired v) : Wired (v.step a) := by
  cases a with
  | feature kind =>
    obtain ⟨d1, d2, d3, -, d5⟩ := h.destroyed
    cases kind with
    | image => constructor <;> simp [Visual.step, d1, d2, d3, d5, Kind.plays]
    | audio => constructor <;> simp [Visual.step, d1, d2, d3, d5, Kind.plays]
    | results => constructor <;> simp [Visual.step, d1, d2, d3, d5]
    | other => constructor <;> simp [Visual.step, d1, d2, d3, d5]
  | found n k =>
    by_cases hn : n ∈ v.waiting
    · by_cases hk : k = 0
      · have e : v.step (.found n k) = { v with waiting := v.waiting.erase n } := by simp [Visual.step, hn, hk]
        rw [e]
        exact ⟨h.play, h.previous, h.next, h.any, h.all⟩
      · constructor <;> simp [Visual.step, hn, hk, h.play, h.previous, h.next, Kind.plays]
    · have e : v.step (.found n k) = v := by simp [Visual.step, hn]
      rw [e]; exact h

theorem wired_run (as : List Arrival) : Wired (Visual.start.run as) := by
  induction as using List.reverseRecOn with
  | nil => constructor <;> simp [Visual.start, Visual.run]
  | append_singleton as a ih => rw [vrun_snoc]; exact wired_step _ _ ih

/-- **C343** (the keys act on what is on display): after any history, the space key reaches exactly the sounds and results on display, and the arrow keys exactly the
results on display, each once, in order. -/
theorem C343_keys (as : List Arrival) :
    (Visual.start.run as).onPlay = (Visual.start.run as).area.filter (·.kind.plays) ∧
    (Visual.start.run as).onPrevious = (Visual.start.run as).area.filter (·.kind = .results) ∧
    (Visual.start.run as).onNext = (Visual.start.run as).area.filter (·.kind = .results) :=
  ⟨(wired_run as).play, (wired_run as).previous, (wired_run as).next⟩

/-- The feature that comes, if it is one. -/
def kindOf : Arrival → Option Kind
  | .feature k => some k
  | _ => none

/-- The features of a history, in order. -/
def features (as : List Arrival) : List Kind := as.filterMap kindOf

/-- The results that come, if there are any. -/
def foundOf : Arrival → Option View
  | .found n k => if k = 0 then none else some ⟨.results, n⟩
  | _ => none

/-- Only results that were asked for come, and each at most once. -/
def Orderly (as : List Arrival) : Prop :=
  ∀ pre n k post, as = pre ++ .found n k :: post → (features pre)[n]? = some .results ∧ ∀ j, .found n j ∉ pre

theorem Orderly.prefix {as bs : List Arrival} (h : Orderly (as ++ bs)) : Orderly as := by
  intro pre n k post he
  exact h pre n k (post ++ bs) (by rw [he]; simp)

theorem features_snoc (as : List Arrival) (a : Arrival) : features (as ++ [a]) = features as ++ (kindOf a).toList := by
  unfold features
  rw [List.filterMap_append]
  cases h : kindOf a <;> simp [h]

structure Counts (v : Visual) (as : List Arrival) : Prop where
  count : v.count = (features as).length
  waiting : ∀ n, n ∈ v.waiting ↔ (features as)[n]? = some .results ∧ ∀ j, .found n j ∉ as
  nodup : v.waiting.Nodup

theorem destroy_count (v : Visual) : v.destroy.count = v.count ∧ v.destroy.waiting = v.waiting ∧ v.destroy.area = v.area := by
  unfold Visual.destroy; split <;> simp

theorem step_count (v : Visual) (kind : Kind) : (v.step (.feature kind)).count = v.count + 1 ∧
    (v.step (.feature kind)).waiting = (if kind = .results then v.waiting ++ [v.count] else v.waiting) ∧
    (v.step (.feature kind)).area = (if kind = .image ∨ kind = .audio then [⟨kind, v.count⟩] else []) := by
  obtain ⟨d1, d2, d3⟩ := destroy_count { v with area := [] }
  cases kind <;> simp [Visual.step, d2, d3]

theorem counts_run (as : List Arrival) (ho : Orderly as) : Counts (Visual.start.run as) as := by
  induction as using List.reverseRecOn with
  | nil => constructor <;> simp [Visual.start, Visual.run, features]
  | append_singleton as a ih =>
    have h := ih ho.prefix
    rw [vrun_snoc]
    obtain ⟨v, hv⟩ : ∃ v, v = Visual.start.run as := ⟨_, rfl⟩
    rw [← hv] at h ⊢
    cases a with
    | feature kind =>
      obtain ⟨s1, s2, -⟩ := step_count v kind
      have ef : features (as ++ [.feature kind]) = features as ++ [kind] := by rw [features_snoc]; rfl
      have hfresh : ∀ j, .found (features as).length j ∉ as := by
        intro j hj
        obtain ⟨pre, post, he⟩ := List.append_of_mem hj
        have := (ho.prefix pre _ j post he).1
        have hlt := (List.getElem?_eq_some_iff.1 this).1
        have : (features pre).length ≤ (features as).length := by
          rw [he]; unfold features; rw [List.filterMap_append, List.length_append]; omega
        omega
      constructor
      · rw [s1, ef, h.count]; simp
      · intro n
        rw [s2, ef]
        have hmem : (∀ j, Arrival.found n j ∉ as ++ [.feature kind]) ↔ ∀ j, Arrival.found n j ∉ as := by simp
        rw [hmem]
        by_cases hk : kind = .results
        · subst hk
          rw [if_pos rfl, List.mem_append, h.waiting n, List.mem_singleton, h.count]
          constructor
          · rintro (⟨h1, h2⟩ | rfl)
            · exact ⟨by rw [List.getElem?_append_left (List.getElem?_eq_some_iff.1 h1).1]; exact h1, h2⟩
            · exact ⟨by simp, hfresh⟩
          · rintro ⟨h1, h2⟩
            by_cases hn : n < (features as).length
            · rw [List.getElem?_append_left hn] at h1
              exact Or.inl ⟨h1, h2⟩
            · have := (List.getElem?_eq_some_iff.1 h1).1
              simp at this
              exact Or.inr (by omega)
        · rw [if_neg hk, h.waiting n]
          constructor
          · rintro ⟨h1, h2⟩
            exact ⟨by rw [List.getElem?_append_left (List.getElem?_eq_some_iff.1 h1).1]; exact h1, h2⟩
          · rintro ⟨h1, h2⟩
            by_cases hn : n < (features as).length
            · rw [List.getElem?_append_left hn] at h1
              exact ⟨h1, h2⟩
            · have h3 := (List.getElem?_eq_some_iff.1 h1).1
              simp at h3
              have : n = (features as).length := by omega
              subst this
              simp at h1
              exact absurd h1 hk
      · rw [s2]
        split_ifs with hk
        · rw [List.nodup_append]
          refine ⟨h.nodup, by simp, ?_⟩
          intro a ha b hb
          rw [List.mem_singleton, h.count] at hb
          have := (List.getElem?_eq_some_iff.1 ((h.waiting a).1 ha).1).1
          omega
        · exact h.nodup
    | found n k =>
      have ef : features (as ++ [.found n k]) = features as := by rw [features_snoc]; simp [kindOf]
      obtain ⟨h1, h2⟩ := ho as n k [] rfl
      have hw : n ∈ v.waiting := (h.waiting n).2 ⟨h1, h2⟩
      have sw : (v.step (.found n k)).waiting = v.waiting.erase n := by
        simp only [Visual.step, hw, if_true]; split_ifs <;> rfl
      have sc : (v.step (.found n k)).count = v.count := by
        simp only [Visual.step, hw, if_true]; split_ifs <;> rfl
      constructor
      · rw [sc, ef, h.count]
      · intro m
        rw [sw, ef, List.Nodup.mem_erase_iff h.nodup, h.waiting m]
        constructor
        · rintro ⟨g1, g2, g3⟩
          refine ⟨g2, fun j hj => ?_⟩
          rw [List.mem_append, List.mem_singleton] at hj
          rcases hj with hj | hj
          · exact g3 j hj
          · cases hj; exact g1 rfl
        · rintro ⟨g1, g2⟩
          refine ⟨?_, g1, fun j hj => g2 j (List.mem_append_left _ hj)⟩
          rintro rfl
          exact g2 k (by simp)
      · rw [sw]; exact h.nodup.erase n

/-- **C343** (what is on display): since the last feature came, its image or sound if it is one, and then every set of results that has arrived since and is not empty, in
order of arrival: those the feature asked for, and those earlier ones had asked for. -/
theorem C343_display (pre : List Arrival) (kind : Kind) (post : List Arrival) (hpost : ∀ a ∈ post, kindOf a = none)
    (ho : Orderly (pre ++ .feature kind :: post)) :
    (Visual.start.run (pre ++ .feature kind :: post)).area =
      (if kind = .image ∨ kind = .audio then [⟨kind, (features pre).length⟩] else []) ++ post.filterMap foundOf := by
  induction post using List.reverseRecOn with
  | nil =>
    have ho' : Orderly pre := ho.prefix
    rw [vrun_snoc, (step_count _ _).2.2, (counts_run pre ho').count]
    simp
  | append_singleton post a ih =>
    have e : pre ++ .feature kind :: (post ++ [a]) = (pre ++ .feature kind :: post) ++ [a] := by simp
    rw [e] at ho ⊢
    have ih' := ih (fun b hb => hpost b (by simp [hb])) ho.prefix
    rw [vrun_snoc]
    cases a with
    | feature k => exact absurd (hpost (.feature k) (by simp)) (by simp [kindOf])
    | found n k =>
      obtain ⟨h1, h2⟩ := ho _ n k [] rfl
      have hw := ((counts_run _ ho.prefix).waiting n).2 ⟨h1, h2⟩
      rw [List.filterMap_append, ← List.append_assoc, ← ih']
      simp only [Visual.step, hw, if_true]
      by_cases hk : k = 0
      · simp [hk, foundOf]
      · simp [hk, foundOf]

/-- **C343** (one thing at a time): if no results arrive after a later feature has come, at most one thing is on display, and a key acts on at most that one. -/
theorem C343_one (pre : List Arrival) (kind : Kind) (post : List Arrival) (hpost : ∀ a ∈ post, ∃ k, a = .found (features pre).length k)
    (ho : Orderly (pre ++ .feature kind :: post)) :
    (Visual.start.run (pre ++ .feature kind :: post)).area.length ≤ 1 ∧ (Visual.start.run (pre ++ .feature kind :: post)).onPlay.length ≤ 1 := by
  have hd := C343_display pre kind post (fun a ha => by obtain ⟨k, rfl⟩ := hpost a ha; rfl) ho
  have hl : (Visual.start.run (pre ++ .feature kind :: post)).area.length ≤ 1 := by
    rw [hd]
    match post, hpost, ho with
    | [], _, _ => simp; split_ifs <;> simp
    | [a], hpost, ho =>
      obtain ⟨k, rfl⟩ := hpost a (by simp)
      have h1 := (ho (pre ++ [.feature kind]) (features pre).length k [] (by simp)).1
      have hk : kind = .results := by
        rw [features_snoc] at h1
        simpa [kindOf] using h1
      subst hk
      have : ([Arrival.found (features pre).length k].filterMap foundOf).length ≤ 1 :=
        le_trans (List.length_filterMap_le _ _) (by simp)
      simpa using this
    | a :: b :: r, hpost, ho =>
      exfalso
      obtain ⟨k, rfl⟩ := hpost a (by simp)
      obtain ⟨l, rfl⟩ := hpost b (by simp)
      exact (ho (pre ++ [.feature kind, .found (features pre).length k]) (features pre).length l r (by simp)).2 k (by simp)
  refine ⟨hl, ?_⟩
  rw [(C343_keys _).1]
  exact le_trans (List.length_filter_le _ _) hl

theorem orderly_late : Orderly [.feature .results, .feature .audio, .found 0 3] := by
  intro pre n k post h
  match pre, h with
  | [], h => simp at h
  | [_], h => simp at h
  | [x0, x1], h =>
    simp only [List.cons_append, List.nil_append, List.cons.injEq, Arrival.found.injEq] at h
    obtain ⟨rfl, rfl, ⟨rfl, rfl⟩, -⟩ := h
    exact ⟨rfl, by simp⟩
  | [_, _, _], h => simp at h
  | _ :: _ :: _ :: _ :: r, h => simp at h

/-- Refuted: that one thing plays.  If search results arrive after a sound was asked for, both are on display and the space key plays both. -/
theorem C343_refuted : Orderly [.feature .results, .feature .audio, .found 0 3] ∧
    (Visual.start.run [.feature .results, .feature .audio, .found 0 3]).area = [⟨.audio, 1⟩, ⟨.results, 0⟩] ∧
    (Visual.start.run [.feature .results, .feature .audio, .found 0 3]).onPlay = [⟨.audio, 1⟩, ⟨.results, 0⟩] :=
  ⟨orderly_late, by decide, by decide⟩

example := C343_display [.feature .results] .audio [.found 0 3] (by simp [kindOf]) orderly_late
example := C343_one [.feature .results] .audio [] (by simp) (Orderly.prefix (bs := [.found 0 3]) orderly_late)

/-! ## C344: the client's methods -/

/-- **C344**: a client has a method for every key of its own, and each of them calls the endpoint of the key the loop ran through last: its own endpoint exactly if that is
its key. -/
theorem C344_methods {K : Type} (keys : List (K × Bool)) :
    (clientMethods keys).map (·.1) = (keys.filter (·.2)).map (·.1) ∧
    ∀ k e, (k, e) ∈ clientMethods keys → e = keys.getLast?.map (·.1) ∧ (e = some k ↔ ∃ before own, keys = before ++ [(k, own)]) := by
  refine ⟨by simp [clientMethods], ?_⟩
  intro k e h
  unfold clientMethods at h
  obtain ⟨x, -, hx⟩ := List.mem_map.1 h
  cases hx
  refine ⟨rfl, ?_⟩
  constructor
  · intro hl
    obtain ⟨⟨y, own⟩, hy, rfl⟩ := Option.map_eq_some_iff.1 hl
    obtain ⟨before, hb⟩ := List.getLast?_eq_some_iff.1 hy
    exact ⟨before, own, hb⟩
  · rintro ⟨before, own, rfl⟩
    simp

/-- **C344** (the shipped pages): a client with one endpoint of its own, and nothing inherited after it, calls it. -/
theorem C344_one {K : Type} (inherited : List K) (k : K) :
    clientMethods (inherited.map (fun i => (i, false)) ++ [(k, true)]) = [(k, some k)] := by
  unfold clientMethods
  have : (inherited.map fun i => (i, false)).filter (·.2) = [] := by simp
  rw [List.filter_append, this]
  simp

/-- Refuted: with two endpoints the first method calls the second's. -/
theorem C344_refuted {K : Type} (a b : K) : clientMethods [(a, true), (b, true)] = [(a, some b), (b, some b)] := rfl

/-! ## C345: the stretch of a result that is played -/

section stretch
open Float64 FloatRange
open _root_.Zounds.TimeRequest (Number secondsHeader header_match)

/-- What is assumed of how JavaScript writes numbers and Python reads them: the text of a double reads back as a number that rounds to it, and that of zero and of numbers
from the one nearest to a millionth up has no dash. -/
structure Writes (dec : List Char → Option ℚ) (txt : ℚ → List Char) : Prop where
  reads : ∀ x, IsDouble x → 0 ≤ x → ∃ y, dec (txt x) = some y ∧ fl64 y = x
  plain : ∀ x, IsDouble x → x = 0 ∨ fl64 (1 / 10 ^ 6) ≤ x → Number (txt x)
  oneLine : ∀ x, IsDouble x → '\n' ∉ txt x

theorem fl64_fl64 (x : ℚ) : fl64 (fl64 x) = fl64 x := fl64_self _ (fl64_double x)

/-- The server's answer depends on the numbers in the header only as doubles. -/
theorem getOgg_fl64 {α : Type} (dec : List Char → Option ℚ) (rate : ℕ) (frames : List α) (h : Option (List Char)) :
    getOgg dec rate frames h = getOgg (fun s => (dec s).map fl64) rate frames h := by
  have e : ∀ s t, FloatRange.timeSlice dec s t = FloatRange.timeSlice (fun s => (dec s).map fl64) s t := by
    intro s t
    unfold FloatRange.timeSlice
    beta_reduce
    cases dec s with
    | none => rfl
    | some a =>
      cases dec t with
      | none => simp [startOf, fl64_fl64]
      | some b => simp [startOf, durationOf, fl64_fl64]
  unfold getOgg FloatRange.range
  simp only [e]

theorem nearer {f : ℕ} {ε δ t u : ℚ} {i : ℕ} (h : FrameNear f ε t i) (hd : |t - u| ≤ δ - ε) : FrameNear f δ u i := by
  obtain ⟨w, hw, hi⟩ := h
  refine ⟨w, ?_, hi⟩
  have := abs_sub_le w t u
  linarith

theorem seconds_eq (ps : ℤ) (h : |ps| ≤ 2 ^ 53) : seconds ps = fl64 ((ps : ℚ) / 10 ^ 12) := by
  unfold seconds
  rw [quot_eq ps (10 ^ 12) h (by norm_num)]
  norm_num

theorem seconds_bounds (ps : ℤ) (h0 : 0 ≤ ps) (h1 : ps ≤ 3600 * 10 ^ 12) :
    0 ≤ seconds ps ∧ (ps : ℚ) / 10 ^ 12 * (1 - 1 / 2 ^ 53) ≤ seconds ps ∧ seconds ps ≤ (ps : ℚ) / 10 ^ 12 * (1 + 1 / 2 ^ 53) ∧ IsDouble (seconds ps) := by
  have hp : (0 : ℚ) ≤ (ps : ℚ) / 10 ^ 12 := by
    have : (0 : ℚ) ≤ ps := by exact_mod_cast h0
    positivity
  rw [seconds_eq ps (by rw [abs_of_nonneg h0]; norm_num at h1 ⊢; omega)]
  obtain ⟨l, u⟩ := fl64_bounds _ hp
  exact ⟨fl64_nonneg _ hp, l, u, fl64_double _⟩

/-- **C345**: for a result `duration` picoseconds long, `start` picoseconds into a sound, zero or at least a microsecond in, ending within the first hour, the page asks for and
is sent the frames from one playing less than two picoseconds away from `start` on, as many as fit into a stretch less than four picoseconds off `duration`. -/
theorem C345_stretch {α : Type} (dec : List Char → Option ℚ) (txt : ℚ → List Char) (hw : Writes dec txt) (rate : ℕ) (hr : 0 < rate) (hr2 : rate ≤ Ogg.sec)
    (frames : List α) (start duration : ℤ) (h0 : start = 0 ∨ 10 ^ 6 ≤ start) (hd : 0 ≤ duration) (hs : start + duration ≤ 3600 * 10 ^ 12) :
    ∃ i n, FrameNear (Ogg.freq rate) 2 start i ∧ FrameNear (Ogg.freq rate) 4 duration n ∧
      (i ≤ frames.length → getOgg dec rate frames (some (rangeHeader txt (sliceOf (seconds start) (seconds duration)))) =
        .ok (some (206, (frames.drop i).take n))) ∧
      (frames.length < i → getOgg dec rate frames (some (rangeHeader txt (sliceOf (seconds start) (seconds duration)))) = .error (.py .runtimeError)) := by
  have hs0 : 0 ≤ start := by rcases h0 with h0 | h0 <;> omega
  obtain ⟨a0, al, au, ad⟩ := seconds_bounds start hs0 (by omega)
  obtain ⟨d0, dl, du, dd⟩ := seconds_bounds duration hd (by omega)
  obtain ⟨a, ha⟩ : ∃ a, a = seconds start := ⟨_, rfl⟩
  obtain ⟨d, hd'⟩ : ∃ d, d = seconds duration := ⟨_, rfl⟩
  rw [← ha] at a0 al au ad
  rw [← hd'] at d0 dl du dd
  have hsq : (0 : ℚ) ≤ start := by exact_mod_cast hs0
  have hdq : (0 : ℚ) ≤ duration := by exact_mod_cast hd
  have hq : (start : ℚ) + duration ≤ 3600 * 10 ^ 12 := by exact_mod_cast hs
  obtain ⟨b, hb⟩ : ∃ b, b = fl64 (a + d) := ⟨_, rfl⟩
  have hsl : sliceOf (seconds start) (seconds duration) = (a, b) := by rw [sliceOf, ← ha, ← hd', ← hb]
  obtain ⟨bl, bu⟩ := fl64_bounds (a + d) (by linarith)
  rw [← hb] at bl bu
  have hab : a ≤ b := by rw [hb]; exact fl64_ge _ _ ad (by linarith)
  have hbd : IsDouble b := by rw [hb]; exact fl64_double _
  have hb4 : b ≤ 4096 := by norm_num at *; linarith
  rw [hsl]
  have hhead : rangeHeader txt (a, b) = secondsHeader (txt a) (txt b) := by simp [rangeHeader, secondsHeader]
  rw [hhead, getOgg_fl64]
  have hnum : Number (txt a) := by
    refine hw.plain a ad ?_
    rcases h0 with h0 | h0
    · left
      subst h0
      norm_num at au
      linarith
    · right
      have : (10 ^ 6 : ℚ) ≤ start := by exact_mod_cast h0
      rw [ha, seconds_eq start (by rw [abs_of_nonneg hs0]; norm_num at hs ⊢; omega)]
      refine fl64_mono _ _ ?_
      norm_num at *
      linarith
  obtain ⟨ya, hya, ea⟩ := hw.reads a ad a0
  obtain ⟨yb, hyb, eb⟩ := hw.reads b hbd (by linarith)
  obtain ⟨i, n, hi, hn, g1, g2⟩ := C324_stretch (fun s => (dec s).map fl64) rate hr hr2 frames (txt a) (txt b) hnum (hw.oneLine b hbd) a b
    (by simp [hya, ea]) (by simp [hyb, eb]) a0 hab hb4
  refine ⟨i, n, nearer hi ?_, nearer hn ?_, g1, g2⟩
  · rw [abs_le]
    norm_num at *
    constructor <;> linarith
  · rw [abs_le]
    norm_num at *
    constructor <;> linarith

/-- Every double is written somehow: here in unary. -/
def unary (x : ℚ) : List Char := 'x' :: List.replicate (Encodable.encode x) '1'

/-- And read back. -/
def unaryRead (s : List Char) : Option ℚ := Encodable.decode (s.length - 1)

theorem unary_writes : Writes unaryRead unary := by
  refine ⟨fun x hx _ => ⟨x, ?_, fl64_self x hx⟩, fun x _ _ => ⟨by simp [unary], ?_, ?_⟩, fun x _ => ?_⟩
  · simp [unaryRead, unary]
  · simp [unary, List.mem_replicate]
  · simp [unary, List.mem_replicate]
  · simp [unary, List.mem_replicate]

example := C345_stretch unaryRead unary unary_writes 44100 (by norm_num) (by unfold Ogg.sec; norm_num) (List.range 100000) (10 ^ 12) (5 * 10 ^ 11) (Or.inr (by norm_num))
  (by norm_num) (by norm_num)

/-- Refuted: that every result can be played.  JavaScript writes numbers below a millionth as `5e-7`; the server takes the dash for that of the range and reads the start as
`5e`, which is no number: the request fails. -/
theorem C345_refuted {α : Type} (dec : List Char → Option ℚ) (txt : ℚ → List Char) (x y : ℚ) (mantissa exponent : List Char) (rate : ℕ) (frames : List α)
    (hx : txt x = mantissa ++ 'e' :: '-' :: exponent) (hm : '-' ∉ mantissa) (hl : '\n' ∉ txt x) (hy : '\n' ∉ txt y) (hdec : dec (mantissa ++ ['e']) = none) :
    getOgg dec rate frames (some (rangeHeader txt (x, y))) = .error (.py .valueError) := by
  have hh : rangeHeader txt (x, y) = secondsHeader (mantissa ++ ['e']) (exponent ++ '-' :: txt y) := by
    simp [rangeHeader, secondsHeader, hx]
  rw [hx] at hl
  have hnum : Number (mantissa ++ ['e']) := by
    refine ⟨by simp, by simp [hm], ?_⟩
    simp only [List.mem_append, List.mem_cons] at hl ⊢
    push Not at hl ⊢
    exact ⟨hl.1, hl.2.1, by simp⟩
  have hstop : '\n' ∉ exponent ++ '-' :: txt y := by
    simp only [List.mem_append, List.mem_cons] at hl ⊢
    push Not at hl ⊢
    exact ⟨hl.2.2.2, by decide, hy⟩
  have hne : ¬ (['s', 'e', 'c', 'o', 'n', 'd', 's'] = ['b', 'y', 't', 'e', 's']) := by decide
  have hr : secondsHeader (mantissa ++ ['e']) (exponent ++ '-' :: txt y) ≠ [] := by simp [secondsHeader]
  rw [hh]
  unfold getOgg FloatRange.range
  simp only [hr, if_false, header_match _ _ hnum hstop, hne, if_true, FloatRange.timeSlice, hdec]

example := C345_refuted (fun s => if s = ['5', 'e'] then none else some 1) (fun _ => ['5', 'e', '-', '7']) 0 1 ['5'] ['7'] 44100 ([] : List ℕ) rfl (by decide) (by decide)
  (by decide) rfl

end stretch

/-! ## C346: the address of a search -/

section address
open Web

/-- ASCII text. -/
def Ascii (s : List Char) : Prop := ∀ c ∈ s, c.toNat < 128

theorem asText_cons (b : UInt8) (bs : List UInt8) : asText (b :: bs) = Char.ofNat b.toNat :: asText bs := rfl

theorem ofNat_toNat_char (c : Char) : Char.ofNat c.toNat = c := Char.ofNat_toNat c

theorem byte_char (c : Char) (h : c.toNat < 128) : Char.ofNat (UInt8.ofNat c.toNat).toNat = c := by
  have : (UInt8.ofNat c.toNat).toNat = c.toNat := by
    rw [UInt8.toNat_ofNat']
    omega
  rw [this, ofNat_toNat_char]

/-- Reading one character back. -/
theorem read_plain (c : Char) (rest : List Char) (h : c ≠ '%') (ha : c.toNat < 128) :
    asText (unquote (c :: rest)) = c :: asText (unquote rest) := by
  rw [unquote_plain c rest h, asText_cons, byte_char c ha]

theorem read_percent (c : Char) (rest : List Char) (ha : c.toNat < 128) :
    asText (unquote (percent c ++ rest)) = c :: asText (unquote rest) := by
  have f1 := (hex_facts (c.toNat / 16) (by omega)).1
  have f2 := (hex_facts (c.toNat % 16) (by omega)).1
  have e : percent c ++ rest = '%' :: hexDigit (c.toNat / 16) :: hexDigit (c.toNat % 16) :: rest := rfl
  rw [e, unquote_hex _ _ _ _ _ f1 f2, asText_cons]
  have e2 : 16 * (c.toNat / 16) + c.toNat % 16 = c.toNat := by omega
  rw [e2, byte_char c ha]

/-- A way of writing text that unquoting undoes: every character stands for itself, and is not a percent sign, or is written with one. -/
theorem read_back (f : Char → List Char) (s : List Char) (hs : Ascii s) (hf : ∀ c ∈ s, (f c = [c] ∧ c ≠ '%') ∨ f c = percent c) :
    asText (unquote (s.flatMap f)) = s := by
  induction s with
  | nil => simp [unquote, asText]
  | cons c s ih =>
    have hc : c.toNat < 128 := hs c (by simp)
    have ih' := ih (fun d hd => hs d (by simp [hd])) (fun d hd => hf d (by simp [hd]))
    rw [List.flatMap_cons]
    rcases hf c (by simp) with ⟨h1, h2⟩ | h1
    · rw [h1, List.singleton_append, read_plain c _ h2 hc, ih']
    · rw [h1, read_percent c _ hc, ih']

theorem plain_not (c : Char) (h : plainChar c = true) : c ≠ '%' ∧ c ≠ '+' ∧ c ≠ '=' ∧ 33 ≤ c.toNat ∧ c.toNat < 127 := by
  unfold plainChar at h
  simp only [Bool.or_eq_true, Bool.and_eq_true, decide_eq_true_eq, beq_iff_eq] at h
  refine ⟨?_, ?_, ?_, by omega, by omega⟩ <;>
  · rintro rfl
    revert h
    decide

theorem hexDigit_facts : ∀ n, n < 16 → plainChar (hexDigit n) = true ∧ hexDigit n ≠ '\'' := by decide

/-- The characters of encoded text. -/
theorem encode_chars (s : List Char) (hs : Ascii s) : ∀ d ∈ encodeComponent s, d = '%' ∨ plainChar d = true := by
  intro d hd
  obtain ⟨c, hc, hd⟩ := List.mem_flatMap.1 hd
  have := hs c hc
  split_ifs at hd with h
  · rw [List.mem_singleton] at hd
    right; rw [hd]; exact h
  · unfold percent at hd
    simp only [List.mem_cons, List.not_mem_nil, or_false] at hd
    rcases hd with rfl | rfl | rfl
    · exact Or.inl rfl
    · exact Or.inr (hexDigit_facts _ (by omega)).1
    · exact Or.inr (hexDigit_facts _ (by omega)).1

/-- The text in the address, as the page reads it: encoded, and `'` too. -/
def addressText (s : List Char) : List Char := s.flatMap fun c => if plainChar c ∧ c ≠ '\'' then [c] else percent c

theorem normalize_percent (c : Char) (h : c.toNat < 128) : normalize (percent c) = percent c := by
  obtain ⟨-, h1⟩ := hexDigit_facts (c.toNat / 16) (by omega)
  obtain ⟨-, h2⟩ := hexDigit_facts (c.toNat % 16) (by omega)
  simp [normalize, percent, h1, h2]

theorem normalize_encode (s : List Char) (hs : Ascii s) : normalize (encodeComponent s) = addressText s := by
  induction s with
  | nil => rfl
  | cons c s ih =>
    have hc : c.toNat < 128 := hs c (by simp)
    have ih' := ih fun d hd => hs d (by simp [hd])
    have e1 : normalize (encodeComponent (c :: s)) = normalize (if plainChar c then [c] else percent c) ++ normalize (encodeComponent s) := by
      simp [normalize, encodeComponent]
    have e2 : addressText (c :: s) = (if plainChar c ∧ c ≠ '\'' then [c] else percent c) ++ addressText s := by simp [addressText]
    rw [e1, e2, ih']
    congr 1
    by_cases hp : plainChar c = true
    · by_cases hq : c = '\''
      · subst hq; decide
      · simp [hp, hq, normalize]
    · simp [hp, normalize_percent c hc]

theorem address_chars (s : List Char) (hs : Ascii s) : ∀ d ∈ addressText s, d = '%' ∨ plainChar d = true := by
  intro d hd
  obtain ⟨c, hc, hd⟩ := List.mem_flatMap.1 hd
  have := hs c hc
  split_ifs at hd with h
  · rw [List.mem_singleton] at hd
    right; rw [hd]; exact h.1
  · unfold percent at hd
    simp only [List.mem_cons, List.not_mem_nil, or_false] at hd
    rcases hd with rfl | rfl | rfl
    · exact Or.inl rfl
    · exact Or.inr (hexDigit_facts _ (by omega)).1
    · exact Or.inr (hexDigit_facts _ (by omega)).1

theorem splitOn_none (sep acc s : List Char) (c : Char) (hc : c ∈ sep) (h : c ∉ s) : splitOn sep acc s = [acc ++ s] := by
  induction s generalizing acc with
  | nil => simp [splitOn]
  | cons d s ih =>
    rw [splitOn, if_neg, ih _ (fun hm => h (by simp [hm]))]
    · simp
    · rintro ⟨hp, -⟩
      exact h ((List.isPrefixOf_iff_prefix.1 hp).subset hc)

theorem queryOf_search (s : List Char) (hs : Ascii s) (hne : s ≠ []) : queryOf (searchPart s) = some (addressText s) := by
  have e0 : searchPart s = ['?', 'q', 'u', 'e', 'r', 'y', '='] ++ addressText s := by
    unfold searchPart
    rw [← normalize_encode s hs]
    simp [normalize]
  have heq : '=' ∉ addressText s := by
    intro h
    rcases address_chars s hs _ h with h | h
    · cases h
    · exact absurd h (by decide)
  have hsplit : splitOn ['q', 'u', 'e', 'r', 'y', '='] [] (['q', 'u', 'e', 'r', 'y', '='] ++ addressText s) = [[], addressText s] := by
    have : (['q', 'u', 'e', 'r', 'y', '='] ++ addressText s) = 'q' :: (['u', 'e', 'r', 'y', '='] ++ addressText s) := rfl
    rw [this, splitOn, if_pos ⟨by simp [List.isPrefixOf], by simp⟩]
    have : (['u', 'e', 'r', 'y', '='] ++ addressText s).drop (['q', 'u', 'e', 'r', 'y', '='].length - 1) = addressText s := rfl
    rw [this, splitOn_none _ _ _ '=' (by simp) heq]
    rfl
  have hne' : addressText s ≠ [] := by
    cases s with
    | nil => exact absurd rfl hne
    | cons c s =>
      unfold addressText
      rw [List.flatMap_cons]
      split_ifs <;> simp [percent]
  unfold queryOf
  have : (searchPart s).drop 1 = ['q', 'u', 'e', 'r', 'y', '='] ++ addressText s := by rw [e0]; rfl
  rw [this, hsplit]
  cases h : addressText s with
  | nil => exact absurd h hne'
  | cons c r => rfl

/-- What is sent reads back once, if it has no spaces. -/
theorem plusSpaces_none (s : List Char) (hs : ∀ c ∈ s, c.toNat < 128 ∧ 33 ≤ c.toNat) : plusSpaces (encodeComponent s) = encodeComponent s := by
  induction s with
  | nil => rfl
  | cons c s ih =>
    have hc := hs c (by simp)
    have ih' := ih fun d hd => hs d (by simp [hd])
    have e : encodeComponent (c :: s) = (if plainChar c then [c] else percent c) ++ encodeComponent s := by simp [encodeComponent]
    rw [e]
    have step : ∀ (d : Char) (r : List Char), d ≠ '%' → plusSpaces (d :: r) = d :: plusSpaces r := by
      intro d r hd
      rw [plusSpaces]
      intro r' h1
      exact absurd h1 hd
    split_ifs with hp
    · rw [List.singleton_append, step c _ (plain_not c hp).1, ih']
    · have h1 := hexDigit_facts (c.toNat / 16) (by omega)
      have h2 := hexDigit_facts (c.toNat % 16) (by omega)
      have e2 : percent c ++ encodeComponent s = '%' :: hexDigit (c.toNat / 16) :: hexDigit (c.toNat % 16) :: encodeComponent s := rfl
      rw [e2]
      have hno : ¬ (hexDigit (c.toNat / 16) = '2' ∧ hexDigit (c.toNat % 16) = '0') := by
        rintro ⟨g1, g2⟩
        have k1 : ∀ n, n < 16 → hexDigit n = '2' → n = 2 := by decide
        have k2 : ∀ n, n < 16 → hexDigit n = '0' → n = 0 := by decide
        have := k1 _ (by omega) g1
        have := k2 _ (by omega) g2
        omega
      have : plusSpaces ('%' :: hexDigit (c.toNat / 16) :: hexDigit (c.toNat % 16) :: encodeComponent s) =
          '%' :: plusSpaces (hexDigit (c.toNat / 16) :: hexDigit (c.toNat % 16) :: encodeComponent s) := by
        rw [plusSpaces]
        intro r' h1' h2'
        simp only [List.cons.injEq] at h2'
        exact hno ⟨h2'.1, h2'.2.1⟩
      rw [this, step _ _ (plain_not _ h1.1).1, step _ _ (plain_not _ h2.1).1, ih']

theorem strip_none (s : List Char) (hs : ∀ c ∈ s, blank c = false) : strip s = s := by
  have key : ∀ t : List Char, (∀ c ∈ t, blank c = false) → t.dropWhile blank = t := by
    intro t ht
    cases t with
    | nil => rfl
    | cons c t => simp [List.dropWhile_cons, ht c (by simp)]
  unfold strip
  rw [key s hs, key s.reverse (fun c hc => hs c (by simpa using hc)), List.reverse_reverse]

/-- **C346** (the way there and back): for every ASCII query that is not empty, what the server searches for when the address the page made for the query is opened is the
query. -/
theorem C346_round_trip (q : List Char) (hq : Ascii q) (hne : q ≠ []) :
    ∃ t, queryOf (searchPart q) = some t ∧ receiveArgument (sendArgument t) = q := by
  refine ⟨addressText q, queryOf_search q hq hne, ?_⟩
  have hch : ∀ d ∈ addressText q, d.toNat < 128 ∧ 33 ≤ d.toNat ∧ d ≠ '+' ∧ blank d = false := by
    intro d hd
    rcases address_chars q hq d hd with rfl | h
    · decide
    · obtain ⟨h1, h2, h3, h4, h5⟩ := plain_not d h
      refine ⟨by omega, h4, h2, ?_⟩
      unfold blank
      simp only [Bool.or_eq_false_iff, decide_eq_false_iff_not, beq_eq_false_iff_ne]
      omega
  have ha : Ascii (addressText q) := fun d hd => (hch d hd).1
  have hsend : sendArgument (addressText q) = encodeComponent (addressText q) :=
    plusSpaces_none _ fun d hd => ⟨(hch d hd).1, (hch d hd).2.1⟩
  have hplus : (encodeComponent (addressText q)).map (fun c => if c = '+' then ' ' else c) = encodeComponent (addressText q) := by
    have : ∀ d ∈ encodeComponent (addressText q), (if d = '+' then ' ' else d) = d := by
      intro d hd
      have hd' : d ≠ '+' := by
        rcases encode_chars _ ha d hd with rfl | h
        · decide
        · exact (plain_not d h).2.1
      rw [if_neg hd']
    calc (encodeComponent (addressText q)).map (fun c => if c = '+' then ' ' else c)
        = (encodeComponent (addressText q)).map id := List.map_congr_left this
      _ = _ := List.map_id _
  have hfirst : asText (unquote (encodeComponent (addressText q))) = addressText q := by
    refine read_back _ _ ha fun c _ => ?_
    by_cases hp : plainChar c = true
    · exact Or.inl ⟨by simp [hp], (plain_not c hp).1⟩
    · exact Or.inr (by simp [hp])
  unfold receiveArgument
  rw [hsend, hplus, hfirst, strip_none _ fun d hd => (hch d hd).2.2.2]
  refine read_back _ _ hq fun c _ => ?_
  by_cases hp : plainChar c = true ∧ c ≠ '\''
  · exact Or.inl ⟨if_pos hp, (plain_not c hp.1).1⟩
  · exact Or.inr (if_neg hp)

theorem b64Char_ascii : ∀ n, n < 64 → (Persist.b64Char n).toNat < 128 := by decide +kernel

theorem b64encode_ascii (bs : Persist.Bytes) : Ascii (Persist.b64encode bs) := by
  match bs with
  | [] => intro c hc; simp [Persist.b64encode] at hc
  | [a] =>
    have := a.toNat_lt
    intro c hc
    simp only [Persist.b64encode, List.mem_cons, List.not_mem_nil, or_false] at hc
    rcases hc with rfl | rfl | rfl | rfl
    · exact b64Char_ascii _ (by omega)
    · exact b64Char_ascii _ (by omega)
    · decide
    · decide
  | [a, b] =>
    have := a.toNat_lt
    have := b.toNat_lt
    intro c hc
    simp only [Persist.b64encode, List.mem_cons, List.not_mem_nil, or_false] at hc
    rcases hc with rfl | rfl | rfl | rfl
    · exact b64Char_ascii _ (by omega)
    · exact b64Char_ascii _ (by omega)
    · exact b64Char_ascii _ (by omega)
    · decide
  | a :: b :: d :: r =>
    have := a.toNat_lt
    have := b.toNat_lt
    have := d.toNat_lt
    intro c hc
    simp only [Persist.b64encode, List.mem_cons] at hc
    rcases hc with rfl | rfl | rfl | rfl | hc
    · exact b64Char_ascii _ (by omega)
    · exact b64Char_ascii _ (by omega)
    · exact b64Char_ascii _ (by omega)
    · exact b64Char_ascii _ (by omega)
    · exact b64encode_ascii r c hc

/-- **C346** (links to searches): for every query of at least one byte, opening the address the page made for it makes the server search for exactly these bytes. -/
theorem C346_link (bs : Persist.Bytes) (hne : bs ≠ []) :
    ∃ t, queryOf (searchPart (Persist.b64encode bs)) = some t ∧ Persist.b64decode (receiveArgument (sendArgument t)) = .ok bs := by
  have hn : Persist.b64encode bs ≠ [] := by
    match bs, hne with
    | [a], _ => simp [Persist.b64encode]
    | [a, b], _ => simp [Persist.b64encode]
    | a :: b :: d :: r, _ => simp [Persist.b64encode]
  obtain ⟨t, h1, h2⟩ := C346_round_trip _ (b64encode_ascii bs) hn
  exact ⟨t, h1, by rw [h2]; exact Props.Persist.b64_roundtrip bs⟩

theorem plain_iff (n : Nat) (h : n < 128) : plainChar (Char.ofNat n) = true ↔ (Char.ofNat n).isAlphanum = true ∨ Char.ofNat n ∈ ['-', '_', '.', '!', '~', '*', '\'', '(', ')'] := by
  revert n
  decide

/-- **C346** (what an address shows): letters, digits and `-_.!~*'()` are in the address as they are, and every other character as `%` and the two hexadecimal digits of its
number. -/
theorem C346_shown (c : Char) (h : c.toNat < 128) :
    ((c.isAlphanum = true ∨ c ∈ ['-', '_', '.', '!', '~', '*', '\'', '(', ')']) → encodeComponent [c] = [c]) ∧
    (¬ (c.isAlphanum = true ∨ c ∈ ['-', '_', '.', '!', '~', '*', '\'', '(', ')']) → ∃ a b, encodeComponent [c] = ['%', a, b] ∧
      "0123456789ABCDEF".toList[c.toNat / 16]? = some a ∧ "0123456789ABCDEF".toList[c.toNat % 16]? = some b) := by
  have hp := plain_iff c.toNat h
  rw [Char.ofNat_toNat] at hp
  constructor
  · intro hc
    simp [encodeComponent, hp.2 hc]
  · intro hc
    have hn : ¬ plainChar c = true := fun h => hc (hp.1 h)
    refine ⟨hexDigit (c.toNat / 16), hexDigit (c.toNat % 16), by simp [encodeComponent, hn, percent], ?_, ?_⟩
    · have : ∀ n, n < 16 → "0123456789ABCDEF".toList[n]? = some (hexDigit n) := by decide
      exact this _ (by omega)
    · have : ∀ n, n < 16 → "0123456789ABCDEF".toList[n]? = some (hexDigit n) := by decide
      exact this _ (by omega)

example := (C346_shown '.' (by decide)).1 (by decide)
example := (C346_shown '=' (by decide)).2 (by decide)

/-- An address without a query, or with an empty one, makes the page search at random. -/
theorem C346_random : queryOf [] = none ∧ queryOf (searchPart []) = none := by decide +kernel

/-- Refuted: that the server takes a query as it is.  Sent by another client without encoding, a `+` is taken for a space; sent encoded once, `%` and two digits are
taken for the character they name. -/
theorem C346_once_refuted : receiveArgument ['a', '+', 'b'] = ['a', ' ', 'b'] ∧ receiveArgument ['+', 'a', '+'] = ['a'] ∧
    receiveArgument (sendArgument ['%', '4', '1']) = ['A'] := by
  constructor <;> simp [receiveArgument, sendArgument, encodeComponent, plainChar, percent, plusSpaces, hexDigit, unquote, hexVal, asText, strip, blank]

end address

/-! ## C347: the search page's address and results -/

/-- One action of a patient reader: the button, or going to an entry the page made, and then the answer to it. -/
inductive Patient where
  | random (q : List Char)
  | revisit (i : Nat)
  deriving DecidableEq

/-- The query of an entry of the history. -/
def Page.queryAt (p : Page) (i : Nat) : List Char := ((p.entries[i]?).bind (·.query)).getD []

/-- What the browser and the server do for it: a request, and its answer, which holds results for the query asked for. -/
def Patient.acts (p : Page) : Patient → List Act
  | .random q => [.click, .answer 0 q]
  | .revisit i => [.go i, .answer 0 (p.queryAt i)]

/-- An action that can be taken: any random search, and going to an entry after the first. -/
def Patient.can (p : Page) : Patient → Prop
  | .random _ => True
  | .revisit i => 0 < i ∧ i < p.entries.length

/-- A patient reader's session. -/
inductive Session : Page → Page → Prop
  | nil (p : Page) : Session p p
  | step (p q : Page) (a : Patient) : Session p q → a.can q → Session p (q.run (a.acts q))

/-- The page right after it was opened at an address and its first request was answered. -/
def firstAnswer (query : Option (List Char)) (found : List Char) : Page := (Page.open query).run [.answer 0 found]

/-- Nothing is under way, the entries after the first were pushed with a query, and what is shown is what the address says. -/
structure Settled (p : Page) : Prop where
  quiet : p.waiting = []
  entries : ∀ i e, 0 < i → p.entries[i]? = some e → e.pushed = true ∧ ∃ q, e.query = some q
  inside : p.current < p.entries.length
  agrees : p.shown = p.address ∧ p.shown ≠ none

theorem settled_push (p : Page) (h : Settled p) (q : List Char) :
    Settled { p with shown := some q, entries := p.entries.take (p.current + 1) ++ [⟨some q, true⟩], current := p.current + 1 } := by
  have hl : (p.entries.take (p.current + 1)).length = p.current + 1 := by
    rw [List.length_take]
    have := h.inside
    omega
  refine ⟨h.quiet, ?_, ?_, ?_, ?_⟩
  · intro i e hi he
    by_cases hlt : i < p.current + 1
    · simp only at he
      rw [List.getElem?_append_left (by omega), List.getElem?_take_of_lt hlt] at he
      exact h.entries i e hi he
    · have hlen := (List.getElem?_eq_some_iff.1 he).1
      simp only [List.length_append, hl, List.length_singleton] at hlen
      have : i = p.current + 1 := by omega
      subst this
      simp only at he
      rw [List.getElem?_append_right (by omega), hl, Nat.sub_self] at he
      cases he
      exact ⟨rfl, q, rfl⟩
  · simp only [List.length_append, hl, List.length_singleton]; omega
  · unfold Page.address
    simp only
    rw [List.getElem?_append_right (by omega), hl, Nat.sub_self]
    rfl
  · simp

theorem settled_step (p : Page) (h : Settled p) (a : Patient) (ha : a.can p) : Settled (p.run (a.acts p)) := by
  obtain ⟨entries, current, shown, waiting⟩ := p
  have hq : waiting = [] := h.quiet
  subst hq
  cases a with
  | random q => exact settled_push _ h q
  | revisit i =>
    obtain ⟨h1, h2⟩ := ha
    simp only at h2
    obtain ⟨e, he⟩ : ∃ e, entries[i]? = some e := ⟨_, List.getElem?_eq_getElem h2⟩
    obtain ⟨hp, q, hq⟩ := h.entries i e h1 he
    have hrun : Page.run ⟨entries, current, shown, []⟩ (Patient.acts ⟨entries, current, shown, []⟩ (.revisit i)) = ⟨entries, i, some q, []⟩ := by
      simp [Page.run, Patient.acts, Page.step, Page.queryAt, he, hp, hq, Page.answered]
    rw [hrun]
    refine ⟨rfl, h.entries, h2, ?_, by simp⟩
    simp [Page.address, he, hq]

theorem settled_first (query : Option (List Char)) (found : List Char) (hq : ∀ q, query = some q → found = q) : Settled (firstAnswer query found) := by
  cases query with
  | none =>
    refine ⟨rfl, ?_, by simp [firstAnswer, Page.run, Page.open, Page.step, Page.answered], rfl, by simp [firstAnswer, Page.run, Page.open, Page.step, Page.answered]⟩
    intro i e hi he
    have hl := (List.getElem?_eq_some_iff.1 he).1
    simp [firstAnswer, Page.run, Page.open, Page.step, Page.answered] at hl
    have : i = 1 := by omega
    subst this
    simp [firstAnswer, Page.run, Page.open, Page.step, Page.answered] at he
    subst he
    exact ⟨rfl, found, rfl⟩
  | some q =>
    have := hq q rfl
    subst this
    refine ⟨rfl, ?_, by simp [firstAnswer, Page.run, Page.open, Page.step, Page.answered], rfl, by simp [firstAnswer, Page.run, Page.open, Page.step, Page.answered]⟩
    intro i e hi he
    have hl := (List.getElem?_eq_some_iff.1 he).1
    simp [firstAnswer, Page.run, Page.open, Page.step, Page.answered] at hl
    omega

/-- **C347**: for a reader who waits for each answer before the next action and never goes back to the entry the page was opened at, the results shown are always those of the
query in the address: after random searches, and after going back and forth between them, any number of times. -/
theorem C347_agree (query : Option (List Char)) (found : List Char) (hq : ∀ q, query = some q → found = q) (p : Page)
    (hs : Session (firstAnswer query found) p) : p.address ≠ none ∧ p.shown = p.address := by
  have h : Settled p := by
    obtain ⟨p0, hp0⟩ : ∃ p0, p0 = firstAnswer query found := ⟨_, rfl⟩
    have h0 : Settled p0 := hp0 ▸ settled_first query found hq
    rw [← hp0] at hs
    induction hs with
    | nil => exact h0
    | step q a _ hc ih => exact settled_step _ ih _ hc
  exact ⟨by rw [← h.agrees.1]; exact h.agrees.2, h.agrees.1⟩

example := C347_agree (some ['a']) ['a'] (fun q h => by cases h; rfl) _ (.step _ _ (.random ['b']) (.nil _) trivial)

/-- Refuted (back to the start): opened at a link, one random search, and back: the address is that of the link again, the results are still those of the random search. -/
theorem C347_back_refuted (a b : List Char) : ((firstAnswer (some a) a).run [.click, .answer 0 b, .go 0]).address = some a ∧
    ((firstAnswer (some a) a).run [.click, .answer 0 b, .go 0]).shown = some b ∧ ((firstAnswer (some a) a).run [.click, .answer 0 b, .go 0]).waiting = [] :=
  ⟨rfl, rfl, rfl⟩

/-- Refuted (a reader in a hurry): going back to a search and pressing the button before its results are there: if the random results come first, the address is theirs and the
results shown are, in the end, those of the search gone back to. -/
theorem C347_hurry_refuted (a b c d : List Char) :
    ((firstAnswer (some a) a).run [.click, .answer 0 b, .click, .answer 0 c, .go 1, .click, .answer 1 d, .answer 0 b]).address = some d ∧
    ((firstAnswer (some a) a).run [.click, .answer 0 b, .click, .answer 0 c, .go 1, .click, .answer 1 d, .answer 0 b]).shown = some b :=
  ⟨rfl, rfl⟩

end Zounds.Browser
