import Verif.Model.Windowed
/-! Helper lemmas about `windowed`. -/

namespace Zounds.Npx
open Zounds
variable {α : Type u}

theorem mapM_ok {β γ : Type _} (f : β → Except PyErr γ) (g : β → γ) (l : List β)
    (h : ∀ x ∈ l, f x = .ok (g x)) : l.mapM f = .ok (l.map g) := by
  induction l with
  | nil => rfl
  | cons x xs ih =>
    rw [List.mapM_cons, h x (by simp), ih (fun y hy => h y (by simp [hy]))]
    rfl

theorem take_drop_eq_map (a : List α) (k w : Nat) (h : k + w ≤ a.length) :
    (a.drop k).take w = (List.range w).pmap (fun j (hj : k + j < a.length) => a[k+j])
      (by intro j hj; simp at hj; omega) := by
  apply List.ext_getElem
  · simp; omega
  · intro i h1 h2
    simp

theorem readWindow_ok (a : List α) (w s i : Nat) (h : i * s + w ≤ a.length) :
    readWindow a w s i = .ok ((a.drop (i*s)).take w) := by
  unfold readWindow
  by_cases hw : w = 0
  · subst hw; rfl
  have hne : 0 < a.length := by omega
  rw [mapM_ok _ (fun j => (a[i*s+j]?).getD (a[0]'hne))]
  · congr 1
    apply List.ext_getElem
    · simp; omega
    · intro j h1 h2
      simp at h1 h2
      have : i * s + j < a.length := by omega
      simp [this]
  · intro j hj
    simp at hj
    have : i * s + j < a.length := by omega
    simp [this]

theorem mapM_readWindow (a : List α) (w s n : Nat)
    (h : ∀ i, i < n → i * s + w ≤ a.length) :
    (List.range n).mapM (readWindow a w s) =
      .ok ((List.range n).map fun i => (a.drop (i*s)).take w) := by
  apply mapM_ok
  intro i hi
  exact readWindow_ok a w s i (h i (by simpa using hi))

/-- Number of complete windows returned without padding. -/
def nWin (l w s : Nat) : Nat := if l ≤ w then 0 else 1 + (l - w) / s

theorem nWin_fit {l w s i : Nat} (hi : i < nWin l w s) : i * s + w ≤ l := by
  unfold nWin at hi
  split at hi
  · omega
  · have h1 : i ≤ (l - w) / s := by omega
    have h2 : i * s ≤ (l - w) / s * s := Nat.mul_le_mul_right s h1
    have h3 := Nat.div_mul_le_self (l - w) s
    omega

theorem pyBound_natCast (len : Nat) (i : Nat) : pyBound len (i : Int) = min i len := by
  unfold pyBound
  have : ¬ ((i : Int) < 0) := by omega
  simp [this]

theorem pySlice_nat (a : List α) (i j : Nat) :
    pySlice a (i : Int) (j : Int) = (a.take j).drop i := by
  unfold pySlice
  rw [pyBound_natCast, pyBound_natCast]
  rcases Nat.le_total j a.length with h | h
  · rw [Nat.min_eq_left h]
    rcases Nat.le_total i a.length with h' | h'
    · rw [Nat.min_eq_left h']
    · rw [Nat.min_eq_right h', List.drop_eq_nil_of_le (by simp; omega),
        List.drop_eq_nil_of_le (by simp; omega)]
  · rw [Nat.min_eq_right h, List.take_of_length_le (Nat.le_refl _), List.take_of_length_le h]
    rcases Nat.le_total i a.length with h' | h'
    · rw [Nat.min_eq_left h']
    · rw [Nat.min_eq_right h', List.drop_eq_nil_of_le (by simp),
        List.drop_eq_nil_of_le (by omega)]

theorem wcut_nat (l w s : Nat) :
    wcut l w s = if l ≤ w then (0, 0) else
      (((w + (l - w) / s * s : Nat) : Int), ((nWin l w s * s : Nat) : Int)) := by
  unfold wcut nWin
  by_cases h : l ≤ w
  · have : (l : Int) ≤ w := by omega
    simp [h, this]
  · have h' : ¬ ((l : Int) ≤ w) := by omega
    have hsub : (l : Int) - w = ((l - w : Nat) : Int) := by omega
    simp only [h, h', if_false]
    rw [hsub]
    have hdm := Nat.div_add_mod (l - w) s
    rw [Nat.mul_comm] at hdm
    have hq : ((l - w : Nat) : Int) / (s : Int) * (s : Int) = (((l - w) / s * s : Nat) : Int) := by
      push_cast; rfl
    have hm : ((l - w : Nat) : Int) % (s : Int) = (((l - w) % s : Nat) : Int) := by
      push_cast; rfl
    rw [hq, hm]
    have hl : (if (((l - w) % s : Nat) : Int) ≠ 0 then (w : Int) + (((l - w) / s * s : Nat) : Int) else (l : Int))
        = ((w + (l - w) / s * s : Nat) : Int) := by
      split <;> omega
    rw [hl]
    have : (1 + (l - w) / s) * s = s + (l - w) / s * s := by
      rw [Nat.add_mul, Nat.one_mul]
    rw [this]
    generalize (l - w) / s * s = q at *
    ext <;> simp <;> omega

theorem windowed_nopad (z : α) (a : List α) (w s : Nat) (hw : 2 ≤ w) (hs : 1 ≤ s) :
    windowed z a w (some (s : Int)) false =
      .ok (a.drop (nWin a.length w s * s),
        .wins ((List.range (nWin a.length w s)).map fun i => (a.drop (i * s)).take w)) := by
  unfold windowed
  have h1 : ¬ ((w : Int) < 1) := by omega
  have h2 : ¬ ((s : Int) < 1) := by omega
  have h3 : ¬ ((w : Int) = 1 ∧ (s : Int) = 1) := by omega
  have h4 : ¬ ((w : Int) = 1 ∧ (s : Int) > 1) := by omega
  simp only [h1, h2, h3, h4, if_false, Option.getD_some, Bool.false_eq_true]
  rw [wcut_nat]
  by_cases hl : a.length ≤ w
  · simp only [hl, if_true]
    have e1 : pySlice a 0 0 = [] := by
      have := pySlice_nat a 0 0; simpa using this
    have e2 : pySlice a 0 a.length = a := by
      have := pySlice_nat a 0 a.length; simpa using this
    simp [e1, e2, nWin, hl]
  · simp only [hl, if_false]
    rw [pySlice_nat]
    have e0 : pySlice a 0 ((w + (a.length - w) / s * s : Nat) : Int)
        = a.take (w + (a.length - w) / s * s) := by
      have := pySlice_nat a 0 (w + (a.length - w) / s * s); simpa using this
    rw [e0]
    have hq := Nat.div_mul_le_self (a.length - w) s
    have hlen : (a.take (w + (a.length - w) / s * s)).length = w + (a.length - w) / s * s := by
      simp; omega
    simp only [hlen]
    have h5 : ¬ (w + (a.length - w) / s * s = 0) := by omega
    simp only [h5, if_false]
    have hn : (1 + (((w + (a.length - w) / s * s : Nat) : Int) - w) / (s : Int)).toNat
        = nWin a.length w s := by
      have : ((w + (a.length - w) / s * s : Nat) : Int) - w = (((a.length - w) / s * s : Nat) : Int) := by
        omega
      rw [this]
      have h6 : ((((a.length - w) / s * s : Nat) : Int)) / (s : Int) = (((a.length - w) / s : Nat) : Int) := by
        rw [← Int.natCast_ediv, Nat.mul_div_cancel _ (by omega)]
      rw [h6]; unfold nWin; simp only [hl, if_false]
      generalize (a.length - w) / s = q; omega
    rw [hn]
    have htn : ((w : Int).toNat) = w := by omega
    have hts : ((s : Int).toNat) = s := by omega
    rw [htn, hts]
    have hnw : nWin a.length w s = 1 + (a.length - w) / s := by unfold nWin; simp [hl]
    rw [mapM_readWindow]
    · simp only [List.take_length]
      congr 2
      · congr 1
        apply List.map_congr_left
        intro i hi
        have hi : i < nWin a.length w s := by simpa using hi
        have hi2 : i * s ≤ (a.length - w) / s * s := Nat.mul_le_mul_right s (by omega)
        rw [List.drop_take, List.take_take]
        congr 1; omega
    · intro i hi
      have hi2 : i * s ≤ (a.length - w) / s * s := Nat.mul_le_mul_right s (by omega)
      rw [hlen]; omega

end Zounds.Npx

namespace Zounds.Npx
open Zounds
variable {α : Type u}

/-- Number of windows returned with padding. -/
def nPad (l w s : Nat) : Nat :=
  if l ≤ w then 1
  else if w = s then (l + s - 1) / s
  else if s < w ∧ l % s ≤ w - s then l / s
  else 1 + (l - w) / s

/-- Window `i` of `a` extended by zeros. -/
def padWindow (z : α) (a : List α) (w s i : Nat) : List α :=
  (List.range w).map fun j => a.getD (i * s + j) z

theorem padWindow_eq (z : α) (a : List α) (k w s i : Nat) (h : i * s + w ≤ a.length + k) :
    ((a ++ List.replicate k z).drop (i*s)).take w = padWindow z a w s i := by
  unfold padWindow
  apply List.ext_getElem
  · simp; omega
  · intro j h1 h2
    simp at h1 h2
    simp [List.getElem_append, List.getD_eq_getElem?_getD]
    split
    · rename_i hlt; simp [hlt]
    · rename_i hlt; simp [List.getElem?_eq_none (Nat.le_of_not_lt hlt)]

theorem padWindow_full (z : α) (a : List α) (w s i : Nat) (h : i * s + w ≤ a.length) :
    padWindow z a w s i = (a.drop (i*s)).take w := by
  rw [← padWindow_eq z a 0 w s i (by omega)]; simp

/-- Closed form of the padded length: `max l p`. -/
def padLen (l w s : Nat) : Nat :=
  if l ≤ w then w
  else if w = s then (l + s - 1) / s * s
  else if s < w ∧ l % s ≤ w - s then l / s * s + (w - s)
  else l

theorem ceil_mul (l s : Nat) (hs : 1 ≤ s) :
    (l + s - 1) / s * s = if l % s = 0 then l else l - l % s + s := by
  have hdm := Nat.div_add_mod l s
  have hmod := Nat.mod_lt l (by omega : 0 < s)
  rw [Nat.mul_comm] at hdm
  split
  · rename_i h0
    have : (l + s - 1) / s = l / s := by
      have e : l + s - 1 = (s - 1) + l / s * s := by omega
      rw [e, Nat.add_mul_div_right _ _ (by omega), Nat.div_eq_of_lt (by omega)]; omega
    rw [this]; omega
  · rename_i h0
    have : (l + s - 1) / s = l / s + 1 := by
      have e : l + s - 1 = (l % s - 1) + (l / s + 1) * s := by
        rw [Nat.add_mul]; omega
      rw [e, Nat.add_mul_div_right _ _ (by omega), Nat.div_eq_of_lt (by omega)]; omega
    rw [this, Nat.add_mul]; omega

theorem pad_wpad (z : α) (a : List α) (w s : Nat) (hs : 1 ≤ s) :
    pad z a (wpad a.length w s) = a ++ List.replicate (padLen a.length w s - a.length) z
    ∧ a.length ≤ padLen a.length w s := by
  generalize hl : a.length = l
  have hdm := Nat.div_add_mod l s
  have hmod := Nat.mod_lt l (by omega : 0 < s)
  rw [Nat.mul_comm] at hdm
  have hq : (l : Int) / (s : Int) * (s : Int) = ((l / s * s : Nat) : Int) := by push_cast; rfl
  have hp : wpad l w s ≤ padLen l w s ∧ l ≤ padLen l w s ∧
      (l < padLen l w s → wpad l w s = padLen l w s) := by
    unfold wpad padLen
    rw [hq, ceil_mul l s hs]
    generalize hq' : l / s * s = q at *
    by_cases h1 : l ≤ w
    · have h1' : (l : Int) ≤ w := by omega
      rw [if_pos h1, if_pos h1']; omega
    · have h1' : ¬ (l : Int) ≤ w := by omega
      rw [if_neg h1, if_neg h1']
      by_cases h2 : w = s
      · have h2' : ¬ ((w : Int) - s ≠ 0) := by omega
        rw [if_pos h2]
        simp only [h2', if_false]
        by_cases h3 : l % s = 0
        · have h3' : ¬ ((l : Int) - (q : Int) ≠ 0) := by omega
          rw [if_pos h3]
          simp only [h3', if_false]; omega
        · have h3' : ((l : Int) - (q : Int) ≠ 0) := by omega
          rw [if_neg h3]
          simp only [h3', if_true, not_false_eq_true, ne_eq]; omega
      · have h2' : ((w : Int) - s ≠ 0) := by omega
        rw [if_neg h2]
        simp only [h2', if_true, not_false_eq_true, ne_eq]
        by_cases h3 : s < w ∧ l % s ≤ w - s
        · rw [if_pos h3]; omega
        · rw [if_neg h3]; omega
  refine ⟨?_, hp.2.1⟩
  unfold pad
  rw [hl]
  split
  · rename_i h
    have : padLen l w s - l = 0 := by
      by_cases hlt : l < padLen l w s
      · have := hp.2.2 hlt; omega
      · omega
    rw [this]; simp
  · rename_i h
    have : l < padLen l w s := by omega
    rw [hp.2.2 this]
    congr 2
    omega

theorem nPad_padLen (l w s : Nat) (hw : 2 ≤ w) (hs : 1 ≤ s) :
    w ≤ padLen l w s ∧ 1 + (padLen l w s - w) / s = nPad l w s := by
  unfold padLen nPad
  by_cases h1 : l ≤ w
  · simp [h1]
  · simp only [h1, if_false]
    by_cases h2 : w = s
    · subst h2
      simp only [if_true]
      have hge : 1 ≤ (l + w - 1) / w := by
        rw [Nat.le_div_iff_mul_le (by omega)]; omega
      generalize (l + w - 1) / w = q at *
      obtain ⟨q', rfl⟩ : ∃ q', q = q' + 1 := ⟨q - 1, by omega⟩
      refine ⟨Nat.le_mul_of_pos_left w (by omega), ?_⟩
      have : (q' + 1) * w - w = q' * w := by rw [Nat.add_mul]; omega
      rw [this, Nat.mul_div_cancel _ (by omega)]; omega
    · simp only [h2, if_false]
      by_cases h3 : s < w ∧ l % s ≤ w - s
      · rw [if_pos h3, if_pos h3]
        have hge : 1 ≤ l / s := by
          rw [Nat.le_div_iff_mul_le (by omega)]; omega
        generalize l / s = q at *
        obtain ⟨q', rfl⟩ : ∃ q', q = q' + 1 := ⟨q - 1, by omega⟩
        have : (q' + 1) * s = q' * s + s := by rw [Nat.add_mul]; omega
        rw [this]
        refine ⟨by omega, ?_⟩
        have : q' * s + s + (w - s) - w = q' * s := by omega
        rw [this, Nat.mul_div_cancel _ (by omega)]; omega
      · rw [if_neg h3, if_neg h3]
        exact ⟨by omega, rfl⟩

theorem windowed_pad (z : α) (a : List α) (w s : Nat) (hw : 2 ≤ w) (hs : 1 ≤ s) :
    windowed z a w (some (s : Int)) true =
      .ok ([], .wins ((List.range (nPad a.length w s)).map (padWindow z a w s))) := by
  unfold windowed
  have h1 : ¬ ((w : Int) < 1) := by omega
  have h2 : ¬ ((s : Int) < 1) := by omega
  have h3 : ¬ ((w : Int) = 1 ∧ (s : Int) = 1) := by omega
  have h4 : ¬ ((w : Int) = 1 ∧ (s : Int) > 1) := by omega
  simp only [h1, h2, h3, h4, if_false, Option.getD_some, if_true]
  obtain ⟨hp, hpl⟩ := pad_wpad z a w s hs
  obtain ⟨hwl, hn⟩ := nPad_padLen a.length w s hw hs
  rw [hp]
  generalize padLen a.length w s = P at *
  have hlen : (a ++ List.replicate (P - a.length) z).length = P := by simp; omega
  simp only [hlen]
  have h5 : ¬ (P = 0) := by omega
  simp only [h5, if_false]
  have hn' : (1 + ((P : Int) - w) / (s : Int)).toNat = nPad a.length w s := by
    have : (P : Int) - w = ((P - w : Nat) : Int) := by omega
    rw [this, ← Int.natCast_ediv, ← hn]
    generalize (P - w) / s = q; omega
  rw [hn']
  have htn : ((w : Int).toNat) = w := by omega
  have hts : ((s : Int).toNat) = s := by omega
  rw [htn, hts]
  have hfit : ∀ i, i < nPad a.length w s → i * s + w ≤ P := by
    intro i hi
    have h6 : i * s ≤ (P - w) / s * s := Nat.mul_le_mul_right s (by omega)
    have := Nat.div_mul_le_self (P - w) s
    omega
  rw [mapM_readWindow]
  · simp only
    congr 3
    apply List.map_congr_left
    intro i hi
    apply padWindow_eq
    have := hfit i (by simpa using hi)
    omega
  · intro i hi
    rw [hlen]; exact hfit i hi

end Zounds.Npx
