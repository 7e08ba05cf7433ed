import Verif.Model.Page
import Mathlib.Tactic.IntervalCases

/-! C327: the page a web application serves is its HTML file with every local script tag
replaced by the script. -/

namespace Zounds.Page

open Zounds.Web (dropPrefix?)

/-! ### The specification -/

/-- `tag` is a script tag for the local file `fn`:
`<script src="/fn"></script>`, with any white space after `<script`. -/
def IsTag (fn tag : List Char) : Prop :=
  ∃ ws : List Char, ws ≠ [] ∧ (∀ c ∈ ws, isSpace c = true) ∧ fn ≠ [] ∧ '"' ∉ fn ∧
    tag = ['<', 's', 'c', 'r', 'i', 'p', 't'] ++ ws ++ ['s', 'r', 'c', '=', '"', '/'] ++ fn ++
      ['"', '>', '<', '/', 's', 'c', 'r', 'i', 'p', 't', '>']

/-- `out` is `html` with every local script tag replaced by its file's text between
`<script>` and `</script>`, and with every other character where it was. -/
inductive Inlined (file : List Char → List Char → Prop) : List Char → List Char → Prop where
  | nil : Inlined file [] []
  | tag {fn tag s rest out : List Char} : IsTag fn tag → file fn s → Inlined file rest out →
      Inlined file (tag ++ rest)
        (['<', 's', 'c', 'r', 'i', 'p', 't', '>'] ++ s ++ ['<', '/', 's', 'c', 'r', 'i', 'p', 't', '>'] ++ out)
  | chr {c : Char} {rest out : List Char} : (∀ fn tag, IsTag fn tag → ¬ tag <+: c :: rest) →
      Inlined file rest out → Inlined file (c :: rest) (c :: out)

/-! ### The pattern -/

/-- The tag with white space `ws` for the file `fn`. -/
def mkTag (ws fn : List Char) : List Char := head ++ ws ++ middle ++ fn ++ tail

/-- What the pattern demands of the white space and the file name. -/
def Valid (ws fn : List Char) : Prop :=
  ws ≠ [] ∧ (∀ c ∈ ws, isSpace c = true) ∧ fn ≠ [] ∧ '"' ∉ fn

theorem isTag_iff (fn tag : List Char) : IsTag fn tag ↔ ∃ ws, Valid ws fn ∧ tag = mkTag ws fn :=
  ⟨fun ⟨ws, a, b, c, d, e⟩ => ⟨ws, ⟨a, b, c, d⟩, e⟩, fun ⟨ws, ⟨a, b, c, d⟩, e⟩ => ⟨ws, a, b, c, d, e⟩⟩

theorem dropPrefix_some {p h r : List Char} : dropPrefix? p h = some r ↔ h = p ++ r := by
  induction p generalizing h with
  | nil => simp [dropPrefix?, eq_comm]
  | cons a p ih =>
    cases h with
    | nil => simp [dropPrefix?]
    | cons c h =>
      by_cases hac : a = c
      · subst hac
        simp [dropPrefix?, ih]
      · simp [dropPrefix?, hac, Ne.symm hac]

theorem takeWhile_split {p : Char → Bool} (a b : List Char) (ha : ∀ c ∈ a, p c = true)
    (hb : ∀ c, b.head? = some c → p c = false) :
    (a ++ b).takeWhile p = a ∧ (a ++ b).dropWhile p = b := by
  induction a with
  | nil =>
    cases b with
    | nil => simp
    | cons c b => simp [hb c rfl]
  | cons x a ih =>
    have hx := ha x (by simp)
    have := ih (fun c hc => ha c (List.mem_cons_of_mem _ hc))
    simp [hx, this.1, this.2]

theorem takeWhile_all {p : Char → Bool} (l : List Char) : ∀ c ∈ l.takeWhile p, p c = true := by
  induction l with
  | nil => simp
  | cons x l ih =>
    intro c hc
    by_cases hx : p x = true
    · simp only [List.takeWhile_cons, hx, if_true, List.mem_cons] at hc
      rcases hc with rfl | hc
      · exact hx
      · exact ih c hc
    · simp [List.takeWhile_cons, hx] at hc

theorem tagAt_iff (h fn rest : List Char) :
    tagAt h = some (fn, rest) ↔ ∃ ws, Valid ws fn ∧ h = mkTag ws fn ++ rest := by
  constructor
  · intro heq
    unfold tagAt at heq
    cases h1 : dropPrefix? head h with
    | none => simp [h1] at heq
    | some r1 =>
      simp only [h1] at heq
      by_cases hw : r1.takeWhile isSpace = []
      · simp [hw] at heq
      · rw [if_neg hw] at heq
        cases h2 : dropPrefix? middle (r1.dropWhile isSpace) with
        | none => simp [h2] at heq
        | some r2 =>
          simp only [h2] at heq
          by_cases hf : r2.takeWhile (· != '"') = []
          · simp [hf] at heq
          · rw [if_neg hf] at heq
            cases h3 : dropPrefix? tail (r2.dropWhile (· != '"')) with
            | none => simp [h3] at heq
            | some r3 =>
              simp only [h3, Option.some.injEq, Prod.mk.injEq] at heq
              obtain ⟨rfl, rfl⟩ := heq
              refine ⟨r1.takeWhile isSpace, ⟨hw, takeWhile_all r1, hf, ?_⟩, ?_⟩
              · intro hq
                have := takeWhile_all r2 '"' hq
                simp at this
              · have e1 := dropPrefix_some.1 h1
                have e2 := dropPrefix_some.1 h2
                have e3 := dropPrefix_some.1 h3
                rw [e1, ← List.takeWhile_append_dropWhile (p := isSpace) (l := r1), e2,
                  ← List.takeWhile_append_dropWhile (p := (· != '"')) (l := r2), e3]
                have w1 := takeWhile_split (p := isSpace) (r1.takeWhile isSpace)
                  (middle ++ (r2.takeWhile (· != '"') ++ (tail ++ r3)))
                  (takeWhile_all r1) (by intro c hc; simp [middle] at hc; subst hc; decide)
                have w2 := takeWhile_split (p := (· != '"')) (r2.takeWhile (· != '"'))
                  (tail ++ r3) (takeWhile_all r2) (by intro c hc; simp [tail] at hc; subst hc; decide)
                rw [w1.1, w2.1]
                simp [mkTag, List.append_assoc]
  · rintro ⟨ws, ⟨h1, h2, h3, h4⟩, rfl⟩
    have w1 := takeWhile_split (p := isSpace) ws (middle ++ (fn ++ (tail ++ rest))) h2
      (by intro c hc; simp [middle] at hc; subst hc; decide)
    have w2 := takeWhile_split (p := (· != '"')) fn (tail ++ rest)
      (by intro c hc; simp only [bne_iff_ne, ne_eq]; rintro rfl; exact h4 hc)
      (by intro c hc; simp [tail] at hc; subst hc; decide)
    have e1 : dropPrefix? head (mkTag ws fn ++ rest) = some (ws ++ (middle ++ (fn ++ (tail ++ rest)))) :=
      dropPrefix_some.2 (by simp [mkTag, List.append_assoc])
    have e2 : dropPrefix? middle (middle ++ (fn ++ (tail ++ rest))) = some (fn ++ (tail ++ rest)) :=
      dropPrefix_some.2 rfl
    have e3 : dropPrefix? tail (tail ++ rest) = some rest := dropPrefix_some.2 rfl
    unfold tagAt
    simp only [e1, w1.1, w1.2, if_neg h1, e2, w2.1, w2.2, if_neg h3, e3]

/-- A text starts with at most one script tag. -/
theorem tag_unique {ws fn r ws' fn' r' : List Char} (h : Valid ws fn) (h' : Valid ws' fn')
    (e : mkTag ws fn ++ r = mkTag ws' fn' ++ r') : mkTag ws fn = mkTag ws' fn' ∧ fn = fn' ∧ r = r' := by
  have a := (tagAt_iff _ fn r).2 ⟨ws, h, rfl⟩
  have b := (tagAt_iff _ fn' r').2 ⟨ws', h', rfl⟩
  rw [e, b] at a
  simp only [Option.some.injEq, Prod.mk.injEq] at a
  obtain ⟨rfl, rfl⟩ := a
  exact ⟨List.append_cancel_right e, rfl, rfl⟩

/-! ### A page is a sequence of characters and tags -/

/-- A piece of a page. -/
inductive Seg where
  | chr (c : Char)
  | tag (ws fn : List Char)

def Seg.orig : Seg → List Char
  | .chr c => [c]
  | .tag ws fn => mkTag ws fn

def Seg.found : Seg → Option (List Char × List Char)
  | .chr _ => none
  | .tag ws fn => some (fn, mkTag ws fn)

def origs (segs : List Seg) : List Char := segs.flatMap Seg.orig

/-- Every tag is one, and no tag starts at a character. -/
def Good : List Seg → Prop
  | [] => True
  | .chr c :: rest => (∀ ws fn, Valid ws fn → ¬ mkTag ws fn <+: c :: origs rest) ∧ Good rest
  | .tag ws fn :: rest => Valid ws fn ∧ Good rest

theorem findTags_skip (k : Nat) (h : List Char) : findTags k h = findTags 0 (h.drop k) := by
  induction h generalizing k with
  | nil => cases k <;> simp [findTags]
  | cons c t ih =>
    cases k with
    | zero => simp
    | succ k => simp only [findTags, List.drop_succ_cons]; exact ih k

theorem replaceAll_skip (old new : List Char) (k : Nat) (h : List Char) :
    replaceAll old new k h = replaceAll old new 0 (h.drop k) := by
  induction h generalizing k with
  | nil => cases k <;> simp [replaceAll]
  | cons c t ih =>
    cases k with
    | zero => simp
    | succ k => simp only [replaceAll, List.drop_succ_cons]; exact ih k

theorem mkTag_length (ws fn : List Char) : 0 < (mkTag ws fn).length := by
  simp only [mkTag, head, List.length_append, List.length_cons]; omega

theorem mkTag_cons (ws fn : List Char) :
    mkTag ws fn = '<' :: (['s', 'c', 'r', 'i', 'p', 't'] ++ ws ++ middle ++ fn ++ tail) := by
  simp [mkTag, head]

theorem parse (n : Nat) (h : List Char) (hn : h.length ≤ n) :
    ∃ segs, Good segs ∧ origs segs = h ∧ findTags 0 h = segs.filterMap Seg.found := by
  induction n generalizing h with
  | zero =>
    obtain rfl : h = [] := List.length_eq_zero_iff.1 (by omega)
    exact ⟨[], trivial, rfl, rfl⟩
  | succ n ih =>
    cases h with
    | nil => exact ⟨[], trivial, rfl, rfl⟩
    | cons c t =>
      cases ht : tagAt (c :: t) with
      | none =>
        obtain ⟨segs, g, o, f⟩ := ih t (by simp at hn; omega)
        refine ⟨.chr c :: segs, ⟨?_, g⟩, ?_, ?_⟩
        · intro ws fn hv hp
          rw [o] at hp
          obtain ⟨r, hr⟩ := hp
          have := (tagAt_iff (c :: t) fn r).2 ⟨ws, hv, hr.symm⟩
          rw [ht] at this; cases this
        · simp only [origs, List.flatMap_cons, Seg.orig] at o ⊢
          rw [o]; rfl
        · simp only [findTags, ht, List.filterMap_cons, Seg.found, f]
      | some v =>
        obtain ⟨fn, rest⟩ := v
        obtain ⟨ws, hv, he⟩ := (tagAt_iff _ _ _).1 ht
        have hl := mkTag_length ws fn
        have hle : (c :: t).length = (mkTag ws fn).length + rest.length := by
          rw [he, List.length_append]
        obtain ⟨segs, g, o, f⟩ := ih rest (by omega)
        have htag : (c :: t).take ((c :: t).length - rest.length) = mkTag ws fn := by
          rw [hle, Nat.add_sub_cancel, he, List.take_left']
          rfl
        have hdrop : t.drop ((mkTag ws fn).length - 1) = rest := by
          have : (c :: t).drop (mkTag ws fn).length = rest := by rw [he, List.drop_left']; rfl
          obtain ⟨k, hk⟩ : ∃ k, (mkTag ws fn).length = k + 1 := ⟨_, (Nat.succ_pred_eq_of_pos hl).symm⟩
          rw [hk, List.drop_succ_cons] at this
          rw [hk, Nat.add_sub_cancel]; exact this
        refine ⟨.tag ws fn :: segs, ⟨hv, g⟩, ?_, ?_⟩
        · simp only [origs, List.flatMap_cons, Seg.orig] at o ⊢
          rw [o, he]
        · simp only [findTags, ht, List.filterMap_cons, Seg.found]
          rw [htag, findTags_skip, hdrop, f]

/-! ### The page while tags are being replaced -/

/-- A piece of the page once the tags in `done` have been replaced. -/
def Seg.cur (done : List (List Char)) (g : List Char → List Char) : Seg → List Char
  | .chr c => [c]
  | .tag ws fn => if mkTag ws fn ∈ done then wrap (g fn) else mkTag ws fn

def render (done : List (List Char)) (g : List Char → List Char) (segs : List Seg) : List Char :=
  segs.flatMap (Seg.cur done g)

theorem render_none (g : List Char → List Char) (segs : List Seg) : render [] g segs = origs segs := by
  have : Seg.cur [] g = Seg.orig := by
    funext s
    cases s <;> simp [Seg.cur, Seg.orig]
  unfold render origs
  rw [this]

theorem render_tag_start (done : List (List Char)) (g : List Char → List Char) (ws fn : List Char)
    (rest : List Seg) : ∃ w, render done g (.tag ws fn :: rest) = '<' :: 's' :: w := by
  unfold render
  simp only [List.flatMap_cons, Seg.cur]
  split
  · exact ⟨_, by simp [wrap, openTag]; rfl⟩
  · exact ⟨_, by simp [mkTag, head]; rfl⟩

theorem render_chr (done : List (List Char)) (g : List Char → List Char) (c : Char) (rest : List Seg) :
    render done g (.chr c :: rest) = c :: render done g rest := rfl

theorem origs_chr (c : Char) (rest : List Seg) : origs (.chr c :: rest) = c :: origs rest := rfl

/-- A text without `<` that starts the current page starts the original one. -/
theorem plain_prefix (done : List (List Char)) (g : List Char → List Char) (segs : List Seg)
    (w : List Char) (hw : '<' ∉ w) (h : w <+: render done g segs) : w <+: origs segs := by
  induction segs generalizing w with
  | nil => simpa [render, origs] using h
  | cons s segs ih =>
    cases w with
    | nil => exact List.nil_prefix
    | cons x w =>
      cases s with
      | chr c =>
        rw [render_chr, List.cons_prefix_cons] at h
        rw [origs_chr, List.cons_prefix_cons]
        exact ⟨h.1, ih w (fun hc => hw (List.mem_cons_of_mem _ hc)) h.2⟩
      | tag ws fn =>
        obtain ⟨u, hu⟩ := render_tag_start done g ws fn segs
        rw [hu, List.cons_prefix_cons] at h
        exact absurd (by simp [h.1]) hw

theorem closing_prefix (done : List (List Char)) (g : List Char → List Char) (segs : List Seg)
    (u v : List Char) (hu : '<' ∉ u) (hv : '<' ∉ v) (h : u ++ '<' :: '/' :: v <+: render done g segs) :
    u ++ '<' :: '/' :: v <+: origs segs := by
  induction segs generalizing u with
  | nil => simpa [render, origs] using h
  | cons s segs ih =>
    cases s with
    | chr c =>
      rw [render_chr] at h
      rw [origs_chr]
      cases u with
      | nil =>
        simp only [List.nil_append, List.cons_prefix_cons] at h ⊢
        refine ⟨h.1, plain_prefix done g segs _ ?_ h.2⟩
        simp only [List.mem_cons, not_or]
        exact ⟨by decide, hv⟩
      | cons x u =>
        simp only [List.cons_append, List.cons_prefix_cons] at h ⊢
        exact ⟨h.1, ih u (fun hc => hu (List.mem_cons_of_mem _ hc)) h.2⟩
    | tag ws fn =>
      obtain ⟨w, hw⟩ := render_tag_start done g ws fn segs
      rw [hw] at h
      cases u with
      | nil =>
        simp only [List.nil_append, List.cons_prefix_cons] at h
        exact absurd h.2.1 (by decide)
      | cons x u =>
        simp only [List.cons_append, List.cons_prefix_cons] at h
        exact absurd (by simp [h.1]) hu

theorem space_ne (ws : List Char) (h : ∀ c ∈ ws, isSpace c = true) : '<' ∉ ws := by
  intro hc
  exact absurd (h _ hc) (by decide)

/-- A tag, apart from its first character, is a text without `<` followed by `</script>`. -/
theorem mkTag_shape (ws fn : List Char) (hv : Valid ws fn) (hf : '<' ∉ fn) :
    ∃ u v, '<' ∉ u ∧ '<' ∉ v ∧ mkTag ws fn = '<' :: (u ++ '<' :: '/' :: v) := by
  refine ⟨['s', 'c', 'r', 'i', 'p', 't'] ++ ws ++ middle ++ fn ++ ['"', '>'],
    ['s', 'c', 'r', 'i', 'p', 't', '>'], ?_, by decide, ?_⟩
  · simp only [List.mem_append, not_or]
    exact ⟨⟨⟨⟨by decide, space_ne ws hv.2.1⟩, by decide⟩, hf⟩, by decide⟩
  · simp [mkTag, head, tail, middle, List.append_assoc]

theorem chr_no_tag {done : List (List Char)} {g : List Char → List Char} {segs : List Seg} {c : Char}
    (hg : ∀ ws fn, Valid ws fn → ¬ mkTag ws fn <+: c :: origs segs) (ws fn : List Char)
    (hv : Valid ws fn) (hf : '<' ∉ fn) : ¬ mkTag ws fn <+: c :: render done g segs := by
  intro h
  obtain ⟨u, v, hu, hv', e⟩ := mkTag_shape ws fn hv hf
  apply hg ws fn hv
  rw [e, List.cons_prefix_cons] at h ⊢
  exact ⟨h.1, closing_prefix done g segs u v hu hv' h.2⟩

/-- `str.replace` leaves a stretch alone if the text it looks for starts nowhere in it. -/
theorem replaceAll_pass (old new w rest : List Char)
    (h : ∀ p s, w = p ++ s → s ≠ [] → ¬ old <+: s ++ rest) :
    replaceAll old new 0 (w ++ rest) = w ++ replaceAll old new 0 rest := by
  induction w with
  | nil => rfl
  | cons c w ih =>
    have h0 := h [] (c :: w) rfl (by simp)
    have : old.isPrefixOf (c :: (w ++ rest)) = false := by
      rw [Bool.eq_false_iff]; intro hp
      exact h0 (List.isPrefixOf_iff_prefix.1 hp)
    rw [List.cons_append, replaceAll, this]
    simp only [Bool.false_eq_true, if_false]
    rw [ih (fun p s e hs => h (c :: p) s (by rw [e]; rfl) hs)]
    rfl

theorem replaceAll_hit (old new rest : List Char) (h : old ≠ []) :
    replaceAll old new 0 (old ++ rest) = new ++ replaceAll old new 0 rest := by
  cases old with
  | nil => exact absurd rfl h
  | cons c o =>
    have : (c :: o).isPrefixOf (c :: (o ++ rest)) = true :=
      List.isPrefixOf_iff_prefix.2 (List.prefix_append (c :: o) rest)
    rw [List.cons_append, replaceAll, this]
    simp only [if_true]
    rw [replaceAll_skip]
    simp

theorem starts_lt (ws fn : List Char) {x : Char} {l : List Char} (h : mkTag ws fn <+: x :: l) : x = '<' := by
  rw [mkTag_cons, List.cons_prefix_cons] at h
  exact h.1.symm

/-- Inside a tag no tag starts. -/
theorem inside_tag (ws fn ws' fn' rest : List Char) (hv' : Valid ws' fn')
    (hf' : '<' ∉ fn') (p s : List Char) (hp : p ≠ []) (e : mkTag ws' fn' = p ++ s) (hs : s ≠ []) :
    ¬ mkTag ws fn <+: s ++ rest := by
  intro h
  obtain ⟨u, v, hu, hvv, e'⟩ := mkTag_shape ws' fn' hv' hf'
  rw [e'] at e
  cases p with
  | nil => exact hp rfl
  | cons x p =>
    simp only [List.cons_append, List.cons.injEq] at e
    obtain ⟨y, s', rfl⟩ := List.exists_cons_of_ne_nil hs
    have hy : y = '<' := starts_lt ws fn h
    subst hy
    -- the `<` is the one of the closing tag
    have key : ∀ (u p : List Char), '<' ∉ u → u ++ '<' :: '/' :: v = p ++ '<' :: s' → s' = '/' :: v := by
      intro u
      induction u with
      | nil =>
        intro p _ e
        cases p with
        | nil => simpa using e.symm
        | cons a p =>
          simp only [List.nil_append, List.cons_append, List.cons.injEq] at e
          have : '<' ∈ '/' :: v := by rw [e.2]; simp
          simp only [List.mem_cons] at this
          rcases this with h | h
          · exact absurd h (by decide)
          · exact absurd h hvv
      | cons a u ih =>
        intro p hu e
        cases p with
        | nil =>
          simp only [List.cons_append, List.nil_append, List.cons.injEq] at e
          exact absurd (by simp [e.1]) hu
        | cons b p =>
          simp only [List.cons_append, List.cons.injEq] at e
          exact ih p (fun hc => hu (List.mem_cons_of_mem _ hc)) e.2
    have := key u p hu e.2
    rw [this, mkTag_cons] at h
    simp only [List.cons_append, List.cons_prefix_cons, List.append_assoc] at h
    exact absurd h.2.1 (by decide)

/-- Inside an inlined script whose text has no `<script`, no tag starts. -/
theorem inside_script (ws fn : List Char) (hv : Valid ws fn) (t rest : List Char)
    (ht : ¬ head <:+: t) (p s : List Char) (e : wrap t = p ++ s) (hs : s ≠ []) :
    ¬ mkTag ws fn <+: s ++ rest := by
  intro h
  obtain ⟨x, ws', hws⟩ := List.exists_cons_of_ne_nil hv.1
  have hx : isSpace x = true := hv.2.1 x (by simp [hws])
  have hpre : head ++ [x] <+: s ++ rest := by
    refine List.IsPrefix.trans ?_ h
    rw [mkTag, hws]
    exact ⟨ws' ++ middle ++ fn ++ tail, by simp⟩
  have hhead : head <+: s ++ rest := (List.prefix_append head [x]).trans hpre
  -- where `s` starts
  have hcases : (∃ q, openTag = p ++ q ∧ q ≠ [] ∧ s = q ++ t ++ closeTag) ∨
      (∃ a b, t = a ++ b ∧ b ≠ [] ∧ s = b ++ closeTag) ∨ (∃ a, closeTag = a ++ s) := by
    unfold wrap at e
    rw [List.append_assoc] at e
    rcases List.append_eq_append_iff.1 e with ⟨a, ha, hb⟩ | ⟨a, ha, hb⟩
    · rcases List.append_eq_append_iff.1 hb with ⟨a', ha', hb'⟩ | ⟨a', ha', hb'⟩
      · exact Or.inr (Or.inr ⟨a', hb'⟩)
      · by_cases h0 : a' = []
        · subst h0
          exact Or.inr (Or.inr ⟨[], by simpa using hb'.symm⟩)
        · exact Or.inr (Or.inl ⟨a, a', ha', h0, hb'⟩)
    · by_cases h0 : a = []
      · subst h0
        simp only [List.append_nil] at ha
        simp only [List.nil_append] at hb
        by_cases ht0 : t = []
        · exact Or.inr (Or.inr ⟨[], by rw [hb, ht0]; rfl⟩)
        · exact Or.inr (Or.inl ⟨[], t, rfl, ht0, hb⟩)
      · exact Or.inl ⟨a, ha, h0, by rw [hb, List.append_assoc]⟩
  rcases hcases with ⟨q, hq, hq0, rfl⟩ | ⟨a, b, hab, hb0, rfl⟩ | ⟨a, ha⟩
  · -- in `<script>`
    cases p with
    | nil =>
      simp only [List.nil_append] at hq
      subst hq
      simp only [head, openTag, List.cons_append, List.cons_prefix_cons, true_and, List.nil_append] at hpre
      rw [hpre.1] at hx
      exact absurd hx (by decide)
    | cons c p =>
      obtain ⟨y, q', rfl⟩ := List.exists_cons_of_ne_nil hq0
      have hy : y = '<' := starts_lt ws fn h
      subst hy
      simp only [openTag, List.cons_append, List.cons.injEq] at hq
      have : '<' ∈ ['s', 'c', 'r', 'i', 'p', 't', '>'] := by rw [hq.2]; simp
      exact absurd this (by decide)
  · -- in the text
    by_cases hl : 7 ≤ b.length
    · apply ht
      have : head <+: b := by
        refine List.prefix_of_prefix_length_le (l₃ := b ++ closeTag ++ rest) hhead ?_ ?_
        · rw [List.append_assoc]; exact List.prefix_append _ _
        · simpa [head] using hl
      obtain ⟨z, hz⟩ := this
      exact ⟨a, z, by rw [hab, ← hz, List.append_assoc]⟩
    · have hget : (b ++ closeTag ++ rest)[b.length]? = some '<' := by
        rw [List.append_assoc, List.getElem?_append_right (by omega)]
        simp [closeTag]
      have hlt : b.length < head.length := by simp [head]; omega
      have hget' : head[b.length]? = some '<' := by
        obtain ⟨z, hz⟩ := hhead
        rw [← hz, List.getElem?_append_left hlt] at hget
        exact hget
      have hpos : 0 < b.length := List.length_pos_iff.2 hb0
      obtain ⟨k, hk⟩ : ∃ k, k = b.length := ⟨_, rfl⟩
      rw [← hk] at hget' hpos hlt
      clear hget hk
      have hk7 : k < 7 := hlt
      interval_cases k <;> simp [head] at hget'
  · -- in `</script>`
    obtain ⟨y, s', rfl⟩ := List.exists_cons_of_ne_nil hs
    have hy : y = '<' := starts_lt ws fn h
    subst hy
    cases a with
    | nil =>
      simp only [List.nil_append, closeTag, List.cons.injEq, true_and] at ha
      subst ha
      simp only [head, List.cons_append, List.cons_prefix_cons] at hhead
      exact absurd hhead.2.1 (by decide)
    | cons c a =>
      simp only [closeTag, List.cons_append, List.cons.injEq] at ha
      have : '<' ∈ ['/', 's', 'c', 'r', 'i', 'p', 't', '>'] := by rw [ha.2]; simp
      exact absurd this (by decide)

/-- One step of the loop: all the occurrences of one tag, and nothing else, are replaced. -/
theorem replace_step (done : List (List Char)) (g : List Char → List Char) (segs : List Seg)
    (hg : Good segs) (hc : ∀ ws fn, Seg.tag ws fn ∈ segs → '<' ∉ fn ∧ ¬ head <:+: g fn)
    (ws fn : List Char) (hv : Valid ws fn) (hf : '<' ∉ fn) :
    replaceAll (mkTag ws fn) (wrap (g fn)) 0 (render done g segs) =
      render (mkTag ws fn :: done) g segs := by
  induction segs with
  | nil => rfl
  | cons s segs ih =>
    have hc' : ∀ ws fn, Seg.tag ws fn ∈ segs → '<' ∉ fn ∧ ¬ head <:+: g fn :=
      fun ws fn h => hc ws fn (List.mem_cons_of_mem _ h)
    cases s with
    | chr c =>
      rw [render_chr, render_chr, ← ih hg.2 hc']
      have hno := chr_no_tag (done := done) (g := g) hg.1 ws fn hv hf
      have : (mkTag ws fn).isPrefixOf (c :: render done g segs) = false := by
        rw [Bool.eq_false_iff]; intro hp
        exact hno (List.isPrefixOf_iff_prefix.1 hp)
      rw [replaceAll, this]
      simp
    | tag ws' fn' =>
      have hcl := hc ws' fn' (by simp)
      have hv' := hg.1
      have hr : ∀ d, render d g (.tag ws' fn' :: segs) = Seg.cur d g (.tag ws' fn') ++ render d g segs :=
        fun d => rfl
      rw [hr, hr, ← ih hg.2 hc']
      by_cases hd : mkTag ws' fn' ∈ done
      · have e1 : Seg.cur done g (.tag ws' fn') = wrap (g fn') := by simp [Seg.cur, hd]
        have e2 : Seg.cur (mkTag ws fn :: done) g (.tag ws' fn') = wrap (g fn') := by simp [Seg.cur, hd]
        rw [e1, e2]
        exact replaceAll_pass _ _ _ _ (fun p s e hs => inside_script ws fn hv _ _ hcl.2 p s e hs)
      · have e1 : Seg.cur done g (.tag ws' fn') = mkTag ws' fn' := by simp [Seg.cur, hd]
        rw [e1]
        by_cases he : mkTag ws' fn' = mkTag ws fn
        · have hfn : fn' = fn :=
            (tag_unique (r := []) (r' := []) hv' hv (by simpa using he)).2.1
          have e2 : Seg.cur (mkTag ws fn :: done) g (.tag ws' fn') = wrap (g fn) := by
            have : Seg.cur (mkTag ws fn :: done) g (.tag ws' fn') = wrap (g fn') := by simp [Seg.cur, he]
            rw [this, hfn]
          rw [e2, he]
          refine replaceAll_hit _ _ _ ?_
          intro h0
          have := mkTag_length ws fn
          rw [h0] at this; simp at this
        · have e2 : Seg.cur (mkTag ws fn :: done) g (.tag ws' fn') = mkTag ws' fn' := by
            simp [Seg.cur, hd, he]
          rw [e2]
          refine replaceAll_pass _ _ _ _ ?_
          intro p s e hs
          by_cases hp : p = []
          · subst hp
            simp only [List.nil_append] at e
            subst e
            rintro ⟨r, hr⟩
            exact he (tag_unique hv hv' hr).1.symm
          · exact inside_tag ws fn ws' fn' _ hv' hcl.1 p s hp e hs

theorem inlineAll_ok (dir : List Char) (fs : List Char → Except PyErr (List Char))
    (g : List Char → List Char) (segs : List Seg) (hg : Good segs)
    (hc : ∀ ws fn, Seg.tag ws fn ∈ segs → '<' ∉ fn ∧ ¬ head <:+: g fn)
    (l : List (List Char × List Char))
    (hl : ∀ x ∈ l, ∃ ws, Valid ws x.1 ∧ '<' ∉ x.1 ∧ x.2 = mkTag ws x.1 ∧ fs (join dir x.1) = .ok (g x.1))
    (done : List (List Char)) :
    inlineAll dir fs l (render done g segs) = .ok (render ((l.map (·.2)).reverse ++ done) g segs) := by
  induction l generalizing done with
  | nil => rfl
  | cons x l ih =>
    obtain ⟨fn, tag⟩ := x
    obtain ⟨ws, hv, hf, ht, ho⟩ := hl (fn, tag) (by simp)
    simp only at hv hf ho ht
    subst ht
    simp only [inlineAll, ho]
    rw [replace_step done g segs hg hc ws fn hv hf,
      ih (fun x hx => hl x (List.mem_cons_of_mem _ hx))]
    simp

theorem inlineAll_error (dir : List Char) (fs : List Char → Except PyErr (List Char))
    (l : List (List Char × List Char)) (html : List Char) (x : List Char × List Char) (hx : x ∈ l)
    (e : PyErr) (he : fs (join dir x.1) = .error e) : ∃ e', inlineAll dir fs l html = .error e' := by
  induction l generalizing html with
  | nil => cases hx
  | cons y l ih =>
    obtain ⟨fn, tag⟩ := y
    simp only [inlineAll]
    cases ho : fs (join dir fn) with
    | error e' => exact ⟨e', rfl⟩
    | ok s =>
      rcases List.mem_cons.1 hx with rfl | hx
      · rw [ho] at he; cases he
      · exact ih _ hx

/-! ### The specification, piece by piece -/

/-- The specification, for a page in pieces. -/
def Filled (file : List Char → List Char → Prop) : List Seg → List Char → Prop
  | [], out => out = []
  | .chr c :: rest, out => ∃ o, out = c :: o ∧ Filled file rest o
  | .tag _ fn :: rest, out => ∃ s o, file fn s ∧ out = wrap s ++ o ∧ Filled file rest o

theorem origs_tag (ws fn : List Char) (rest : List Seg) :
    origs (.tag ws fn :: rest) = mkTag ws fn ++ origs rest := rfl

theorem inlined_filled (file : List Char → List Char → Prop) (h out : List Char)
    (hi : Inlined file h out) : ∀ segs, Good segs → origs segs = h → Filled file segs out := by
  induction hi with
  | nil =>
    intro segs _ ho
    cases segs with
    | nil => rfl
    | cons s segs =>
      cases s with
      | chr c => rw [origs_chr] at ho; cases ho
      | tag ws fn => rw [origs_tag, mkTag_cons] at ho; cases ho
  | @tag fn t s rest out ht hfile _ ih =>
    intro segs hg ho
    obtain ⟨ws, hv, rfl⟩ := (isTag_iff fn t).1 ht
    cases segs with
    | nil => rw [mkTag_cons] at ho; cases ho
    | cons x segs =>
      cases x with
      | chr c =>
        rw [origs_chr] at ho
        exact absurd ⟨rest, ho.symm⟩ (hg.1 ws fn hv)
      | tag ws' fn' =>
        rw [origs_tag] at ho
        obtain ⟨_, rfl, hr⟩ := tag_unique hg.1 hv ho
        exact ⟨s, out, hfile, rfl, ih segs hg.2 hr⟩
  | @chr c rest out hno _ ih =>
    intro segs hg ho
    cases segs with
    | nil => cases ho
    | cons x segs =>
      cases x with
      | chr c' =>
        rw [origs_chr] at ho
        cases ho
        exact ⟨out, rfl, ih segs hg.2 rfl⟩
      | tag ws fn =>
        rw [origs_tag] at ho
        exact absurd ⟨_, ho⟩ (hno fn _ ((isTag_iff fn _).2 ⟨ws, hg.1, rfl⟩))

theorem filled_inlined (file : List Char → List Char → Prop) (segs : List Seg) (hg : Good segs)
    (out : List Char) (h : Filled file segs out) : Inlined file (origs segs) out := by
  induction segs generalizing out with
  | nil => rw [show out = [] from h]; exact .nil
  | cons x segs ih =>
    cases x with
    | chr c =>
      obtain ⟨o, rfl, ho⟩ := h
      refine .chr ?_ (ih hg.2 o ho)
      intro fn tag ht
      obtain ⟨ws, hv, rfl⟩ := (isTag_iff fn tag).1 ht
      exact hg.1 ws fn hv
    | tag ws fn =>
      obtain ⟨s, o, hf, rfl, ho⟩ := h
      exact .tag ((isTag_iff fn _).2 ⟨ws, hg.1, rfl⟩) hf (ih hg.2 o ho)

theorem filled_render (file : List Char → List Char → Prop)
    (hfun : ∀ fn s s', file fn s → file fn s' → s = s') (g : List Char → List Char) (segs : List Seg)
    (done : List (List Char))
    (h : ∀ ws fn, Seg.tag ws fn ∈ segs → file fn (g fn) ∧ mkTag ws fn ∈ done) (out : List Char) :
    Filled file segs out ↔ out = render done g segs := by
  induction segs generalizing out with
  | nil => rfl
  | cons x segs ih =>
    have ih' := ih (fun ws fn hm => h ws fn (List.mem_cons_of_mem _ hm))
    cases x with
    | chr c =>
      rw [render_chr]
      constructor
      · rintro ⟨o, rfl, ho⟩
        rw [(ih' o).1 ho]
      · rintro rfl
        exact ⟨_, rfl, (ih' _).2 rfl⟩
    | tag ws fn =>
      obtain ⟨hf, hd⟩ := h ws fn (by simp)
      have e : render done g (.tag ws fn :: segs) = wrap (g fn) ++ render done g segs := by
        simp [render, Seg.cur, hd]
      rw [e]
      constructor
      · rintro ⟨s, o, hs, rfl, ho⟩
        rw [(ih' o).1 ho, hfun fn s (g fn) hs hf]
      · rintro rfl
        exact ⟨_, _, hf, rfl, (ih' _).2 rfl⟩

theorem filled_opens (file : List Char → List Char → Prop) (segs : List Seg) (out : List Char)
    (h : Filled file segs out) (ws fn : List Char) (hm : Seg.tag ws fn ∈ segs) : ∃ s, file fn s := by
  induction segs generalizing out with
  | nil => cases hm
  | cons x segs ih =>
    rcases List.mem_cons.1 hm with rfl | hm'
    · obtain ⟨s, o, hf, _, _⟩ := h
      exact ⟨s, hf⟩
    · cases x with
      | chr c => obtain ⟨o, _, ho⟩ := h; exact ih o ho hm'
      | tag ws fn => obtain ⟨s, o, _, _, ho⟩ := h; exact ih o ho hm'

theorem good_mem (segs : List Seg) (hg : Good segs) (ws fn : List Char) (hm : Seg.tag ws fn ∈ segs) :
    Valid ws fn ∧ mkTag ws fn <:+: origs segs := by
  induction segs with
  | nil => cases hm
  | cons x segs ih =>
    rcases List.mem_cons.1 hm with rfl | hm
    · exact ⟨hg.1, [], origs segs, by rw [origs_tag]; rfl⟩
    · have hg' : Good segs := by cases x <;> exact hg.2
      obtain ⟨a, b⟩ := ih hg' hm
      refine ⟨a, b.trans ?_⟩
      exact ⟨x.orig, [], by simp [origs]⟩

/-! ### The property -/

/-- **C327.** An application's page is its HTML file with every tag
`<script src="/file"></script>` replaced by that file's text between `<script>` and
`</script>`, and every other character untouched; the application cannot be built exactly
when there is no such page, that is when the page or one of the scripts cannot be read.
This is for every page whose script names contain no `<` and every set of scripts whose
texts do not contain `<script`. -/
theorem C327_page (dir name html out : List Char) (fs : List Char → Except PyErr (List Char))
    (hpage : fs (join dir name) = .ok html)
    (hscripts : ∀ fn tag, IsTag fn tag → tag <:+: html →
      '<' ∉ fn ∧ ∀ s, fs (join dir fn) = .ok s → ¬ ['<', 's', 'c', 'r', 'i', 'p', 't'] <:+: s) :
    getHtml dir fs name = .ok out ↔ Inlined (fun fn s => fs (join dir fn) = .ok s) html out := by
  obtain ⟨segs, hg, rfl, hfind⟩ := parse html.length html (Nat.le_refl _)
  have hiff : Inlined (fun fn s => fs (join dir fn) = .ok s) (origs segs) out ↔
      Filled (fun fn s => fs (join dir fn) = .ok s) segs out :=
    ⟨fun h => inlined_filled _ _ _ h segs hg rfl, fun h => filled_inlined _ segs hg out h⟩
  rw [hiff]
  obtain ⟨g, hgdef⟩ : ∃ g : List Char → List Char, ∀ fn, g fn =
      (match fs (join dir fn) with | .ok s => s | .error _ => []) := ⟨_, fun _ => rfl⟩
  have htags : ∀ ws fn, Seg.tag ws fn ∈ segs → '<' ∉ fn ∧ ¬ head <:+: g fn := by
    intro ws fn hm
    obtain ⟨hv, hin⟩ := good_mem segs hg ws fn hm
    obtain ⟨a, b⟩ := hscripts fn _ ((isTag_iff fn _).2 ⟨ws, hv, rfl⟩) hin
    refine ⟨a, ?_⟩
    rw [hgdef]
    cases ho : fs (join dir fn) with
    | ok s => exact b s ho
    | error e => simp [head]
  simp only [getHtml, hpage, hfind]
  by_cases hall : ∀ ws fn, Seg.tag ws fn ∈ segs → fs (join dir fn) = .ok (g fn)
  · have hl : ∀ x ∈ segs.filterMap Seg.found, ∃ ws, Valid ws x.1 ∧ '<' ∉ x.1 ∧ x.2 = mkTag ws x.1 ∧
        fs (join dir x.1) = .ok (g x.1) := by
      intro x hx
      obtain ⟨s, hs, hf⟩ := List.mem_filterMap.1 hx
      cases s with
      | chr c => cases hf
      | tag ws fn =>
        simp only [Seg.found, Option.some.injEq] at hf
        subst hf
        exact ⟨ws, (good_mem segs hg ws fn hs).1, (htags ws fn hs).1, rfl, hall ws fn hs⟩
    have hrun := inlineAll_ok dir fs g segs hg htags _ hl []
    rw [render_none] at hrun
    rw [hrun, filled_render _ (fun fn s s' h h' => by rw [h] at h'; exact Except.ok.inj h') g segs
      (((segs.filterMap Seg.found).map (·.2)).reverse ++ [])]
    · constructor
      · intro h; exact (Except.ok.inj h).symm
      · rintro rfl; rfl
    · intro ws fn hm
      refine ⟨hall ws fn hm, ?_⟩
      simp only [List.append_nil, List.mem_reverse, List.mem_map, List.mem_filterMap]
      exact ⟨(fn, mkTag ws fn), ⟨_, hm, rfl⟩, rfl⟩
  · simp only [not_forall] at hall
    obtain ⟨ws, fn, hm, hno⟩ := hall
    have herr : ∃ e, fs (join dir fn) = .error e := by
      cases ho : fs (join dir fn) with
      | error e => exact ⟨e, rfl⟩
      | ok s => rw [ho, hgdef fn, ho] at hno; exact absurd rfl hno
    obtain ⟨e, he⟩ := herr
    obtain ⟨e', he'⟩ := inlineAll_error dir fs (segs.filterMap Seg.found) (origs segs)
      (fn, mkTag ws fn) (List.mem_filterMap.2 ⟨_, hm, rfl⟩) e he
    rw [he']
    constructor
    · intro h; cases h
    · intro h
      obtain ⟨s, hs⟩ := filled_opens _ segs out h ws fn hm
      rw [he] at hs; cases hs

/-- A page has at most one inlined form. -/
theorem C327_unique (file : List Char → List Char → Prop)
    (hfun : ∀ fn s s', file fn s → file fn s' → s = s') (html a b : List Char)
    (ha : Inlined file html a) (hb : Inlined file html b) : a = b := by
  obtain ⟨segs, hg, rfl, hf⟩ := parse html.length html (Nat.le_refl _)
  clear hf
  have fa := inlined_filled _ _ _ ha segs hg rfl
  have fb := inlined_filled _ _ _ hb segs hg rfl
  clear ha hb
  induction segs generalizing a b with
  | nil => rw [show a = [] from fa, show b = [] from fb]
  | cons x segs ih =>
    cases x with
    | chr c =>
      obtain ⟨o, rfl, ho⟩ := fa
      obtain ⟨o', rfl, ho'⟩ := fb
      rw [ih o o' hg.2 ho ho']
    | tag ws fn =>
      obtain ⟨s, o, hs, rfl, ho⟩ := fa
      obtain ⟨s', o', hs', rfl, ho'⟩ := fb
      rw [ih o o' hg.2 ho ho', hfun fn s s' hs hs']

/-- **C327.** A page without local script tags is served as it is. -/
theorem C327_plain (dir name html : List Char) (fs : List Char → Except PyErr (List Char))
    (hpage : fs (join dir name) = .ok html) (h : ∀ fn tag, IsTag fn tag → ¬ tag <:+: html) :
    getHtml dir fs name = .ok html := by
  refine (C327_page dir name html html fs hpage (fun fn tag ht hi => absurd hi (h fn tag ht))).2 ?_
  clear hpage
  induction html with
  | nil => exact .nil
  | cons c t ih =>
    refine .chr (fun fn tag ht hp => h fn tag ht hp.isInfix) (ih ?_)
    intro fn tag ht hi
    exact h fn tag ht (hi.trans (List.infix_cons (List.infix_refl t)))

/-- **C327, a script of another host.** `<script src="//host/x.js"></script>` is taken for
the local file `/host/x.js`, outside the application's directory; where that file does not
exist the application cannot be built. -/
theorem C327_other_host_refuted (dir name before after p : List Char)
    (fs : List Char → Except PyErr (List Char)) (e : PyErr)
    (hq : '"' ∉ p) (hl : '<' ∉ before)
    (hpage : fs (join dir name) = .ok (before ++ mkTag [' '] ('/' :: p) ++ after))
    (hfile : fs ('/' :: p) = .error e) : getHtml dir fs name = .error e := by
  have hv : Valid [' '] ('/' :: p) :=
    ⟨by simp, by simp; decide, by simp, by simp only [List.mem_cons, not_or]; exact ⟨by decide, hq⟩⟩
  have hfind : ∀ b : List Char, '<' ∉ b → ∃ l,
      findTags 0 (b ++ mkTag [' '] ('/' :: p) ++ after) = ('/' :: p, mkTag [' '] ('/' :: p)) :: l := by
    intro b hb
    induction b with
    | nil =>
      have ht : tagAt (mkTag [' '] ('/' :: p) ++ after) = some ('/' :: p, after) :=
        (tagAt_iff _ _ _).2 ⟨[' '], hv, rfl⟩
      obtain ⟨c, t, hct⟩ := List.exists_cons_of_ne_nil
        (show mkTag [' '] ('/' :: p) ++ after ≠ [] by rw [mkTag_cons]; simp)
      rw [List.nil_append, hct]
      rw [hct] at ht
      simp only [findTags, ht]
      have htk : (c :: t).take ((c :: t).length - after.length) = mkTag [' '] ('/' :: p) := by
        rw [← hct, List.length_append, Nat.add_sub_cancel, List.take_left']
        rfl
      rw [htk]
      exact ⟨_, rfl⟩
    | cons c b ih =>
      simp only [List.mem_cons, not_or] at hb
      obtain ⟨l, hl⟩ := ih hb.2
      refine ⟨l, ?_⟩
      have ht : tagAt (c :: b ++ mkTag [' '] ('/' :: p) ++ after) = none := by
        cases h : tagAt (c :: b ++ mkTag [' '] ('/' :: p) ++ after) with
        | none => rfl
        | some v =>
          obtain ⟨ws, _, e⟩ := (tagAt_iff _ v.1 v.2).1 h
          have hp : mkTag ws v.1 <+: c :: (b ++ mkTag [' '] ('/' :: p) ++ after) := ⟨v.2, e.symm⟩
          exact absurd (starts_lt ws v.1 hp).symm hb.1
      simp only [List.cons_append] at ht ⊢
      simp only [findTags, ht]
      exact hl
  obtain ⟨l, hl'⟩ := hfind before hl
  simp only [getHtml, hpage, hl', inlineAll]
  have : join dir ('/' :: p) = '/' :: p := by simp [join]
  rw [this, hfile]

/-! ### A concrete page, and one that comes out wrong -/

/-- `a<script src="/x"></script>b` in the directory `d`, with `x` holding `1<2`. -/
def demoFs (path : List Char) : Except PyErr (List Char) :=
  if path = ['d', '/', 'p'] then .ok ('a' :: mkTag [' '] ['x'] ++ ['b'])
  else if path = ['d', '/', 'x'] then .ok ['1', '<', '2']
  else .error .keyError

theorem demo_tags (fn tag : List Char) (h : IsTag fn tag) (hi : tag <:+: 'a' :: mkTag [' '] ['x'] ++ ['b']) :
    fn = ['x'] := by
  obtain ⟨ws, hv, rfl⟩ := (isTag_iff fn tag).1 h
  obtain ⟨p, s, e⟩ := hi
  have hdrop : ∃ k, k < 33 ∧ tagAt (('a' :: mkTag [' '] ['x'] ++ ['b']).drop k) = some (fn, s) := by
    refine ⟨p.length, ?_, ?_⟩
    · have := congrArg List.length e
      have h1 := mkTag_length ws fn
      simp only [List.length_append] at this
      have h2 : ('a' :: mkTag [' '] ['x']).length + ['b'].length = 28 := by decide
      omega
    · rw [← e, List.append_assoc, List.drop_left']
      · exact (tagAt_iff _ _ _).2 ⟨ws, hv, rfl⟩
      · rfl
  obtain ⟨k, hk, ht⟩ := hdrop
  clear e h hv
  have : ∀ k < 33, ((tagAt (('a' :: mkTag [' '] ['x'] ++ ['b']).drop k)).map (·.1)).getD ['x'] = ['x'] := by
    decide +kernel
  have := this k hk
  rw [ht] at this
  simpa using this

example : getHtml ['d'] demoFs ['p'] =
    .ok (['a'] ++ ['<', 's', 'c', 'r', 'i', 'p', 't', '>'] ++ ['1', '<', '2'] ++
      ['<', '/', 's', 'c', 'r', 'i', 'p', 't', '>'] ++ ['b']) := by
  refine (C327_page ['d'] ['p'] ('a' :: mkTag [' '] ['x'] ++ ['b']) _ demoFs rfl ?_).2 ?_
  · intro fn tag h hi
    obtain rfl := demo_tags fn tag h hi
    refine ⟨by decide, fun s hs => ?_⟩
    obtain rfl : ['1', '<', '2'] = s := Except.ok.inj hs
    rintro ⟨a, b, e⟩
    have := congrArg List.length e
    simp at this
    omega
  · refine .chr ?_ (.tag (fn := ['x']) (s := ['1', '<', '2']) (rest := ['b']) (out := ['b']) ?_ rfl ?_)
    · intro fn tag h hp
      obtain ⟨ws, _, rfl⟩ := (isTag_iff fn tag).1 h
      exact absurd (starts_lt ws fn hp) (by decide)
    · exact (isTag_iff _ _).2 ⟨[' '], ⟨by simp, by decide, by simp, by decide⟩, rfl⟩
    · refine .chr ?_ .nil
      intro fn tag h hp
      obtain ⟨ws, _, rfl⟩ := (isTag_iff fn tag).1 h
      exact absurd (starts_lt ws fn hp) (by decide)

/-- A page with the scripts `x` and `y`, where the text of `x` mentions `y`'s tag. -/
def nestedFs (path : List Char) : Except PyErr (List Char) :=
  if path = ['d', '/', 'p'] then .ok (mkTag [' '] ['x'] ++ mkTag [' '] ['y'])
  else if path = ['d', '/', 'x'] then .ok (mkTag [' '] ['y'])
  else if path = ['d', '/', 'y'] then .ok ['1']
  else .error .keyError

/-- **C327, refuted without the condition on the scripts.** A script whose text mentions the
tag of a script further down the page does not arrive as written: the second script is
pasted into the middle of it. -/
theorem C327_nested_refuted : ∃ out, getHtml ['d'] nestedFs ['p'] = .ok out ∧
    ¬ Inlined (fun fn s => nestedFs (join ['d'] fn) = .ok s) (mkTag [' '] ['x'] ++ mkTag [' '] ['y']) out ∧
    out = wrap (wrap ['1']) ++ wrap ['1'] := by
  refine ⟨wrap (wrap ['1']) ++ wrap ['1'], by decide +kernel, ?_, rfl⟩
  intro h
  have hgood : Inlined (fun fn s => nestedFs (join ['d'] fn) = .ok s)
      (mkTag [' '] ['x'] ++ mkTag [' '] ['y']) (wrap (mkTag [' '] ['y']) ++ wrap ['1']) := by
    refine .tag (fn := ['x']) (s := mkTag [' '] ['y']) (out := wrap ['1']) ?_ rfl ?_
    · exact (isTag_iff _ _).2 ⟨[' '], ⟨by simp, by decide, by simp, by decide⟩, rfl⟩
    · exact .tag (fn := ['y']) (s := ['1']) (rest := []) (out := [])
        ((isTag_iff _ _).2 ⟨[' '], ⟨by simp, by decide, by simp, by decide⟩, rfl⟩) rfl .nil
  have := C327_unique _ (fun fn s s' h h' => by rw [h] at h'; exact Except.ok.inj h') _ _ _ h hgood
  exact absurd this (by decide +kernel)

example : getHtml ['d'] (fun p => if p = ['d', '/', 'p'] then .ok ['h', 'i'] else .error .keyError) ['p'] =
    .ok ['h', 'i'] := by
  refine C327_plain _ _ _ _ rfl ?_
  intro fn tag h hi
  obtain ⟨ws, _, rfl⟩ := (isTag_iff fn tag).1 h
  have := hi.sublist.subset (show '<' ∈ mkTag ws fn by rw [mkTag_cons]; simp)
  simp at this

example : getHtml ['d'] (fun p => if p = ['d', '/', 'p'] then .ok (['h'] ++ mkTag [' '] ['/', 'w', '/', 'x'] ++ [])
    else .error .keyError) ['p'] = .error .keyError :=
  C327_other_host_refuted ['d'] ['p'] ['h'] [] ['w', '/', 'x'] _ .keyError (by decide) (by decide) rfl (by decide +kernel)

end Zounds.Page
