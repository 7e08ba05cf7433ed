import Verif.Model.Arith
import Verif.Props.ArrayWrite
import Mathlib.Data.List.GetD

/-!
# C249-C256: arithmetic with arrays that have units
-/

namespace Zounds.Arr
open Zounds

/-! ## Specification -/

/-- numpy's rule for combining two shapes, axes counted from the last one, missing axes counting as one: the sizes of an axis agree or one of them is one,
and the result has the other. -/
def Broadcasts (s t r : List Nat) : Prop :=
  r.length = max s.length t.length ∧
  ∀ k < r.length, (s.reverse.getD k 1 = t.reverse.getD k 1 ∨ s.reverse.getD k 1 = 1 ∨ t.reverse.getD k 1 = 1) ∧
    r.reverse.getD k 1 = if s.reverse.getD k 1 = 1 then t.reverse.getD k 1 else s.reverse.getD k 1

/-- `s` is stretched to `t`, without changing the number of axes of `t`. -/
def FitsIn (s t : List Nat) : Prop := s.length ≤ t.length ∧ Spreads s t

/-- The same for shapes given from the last axis on. -/
def BcRev (s t r : List Nat) : Prop :=
  r.length = max s.length t.length ∧
  ∀ k < r.length, (s.getD k 1 = t.getD k 1 ∨ s.getD k 1 = 1 ∨ t.getD k 1 = 1) ∧ r.getD k 1 = if s.getD k 1 = 1 then t.getD k 1 else s.getD k 1

theorem bcRev_nil_left {t r : List Nat} (h : BcRev [] t r) : r = t := by
  obtain ⟨h1, h2⟩ := h
  simp only [List.length_nil, Nat.zero_max] at h1
  apply List.ext_getElem h1
  intro k a b
  have := (h2 k a).2
  simp only [List.getD_nil, if_true] at this
  rwa [List.getD_eq_getElem _ _ a, List.getD_eq_getElem _ _ b] at this

theorem bcRev_nil_right {s r : List Nat} (h : BcRev s [] r) : r = s := by
  obtain ⟨h1, h2⟩ := h
  simp only [List.length_nil, Nat.max_zero] at h1
  apply List.ext_getElem h1
  intro k a b
  have := (h2 k a).2
  simp only [List.getD_nil] at this
  rw [List.getD_eq_getElem _ _ a, List.getD_eq_getElem _ _ b] at this
  rw [this]
  split
  · rename_i h; rw [h]
  · rfl

theorem bcRev_cons {a b n : Nat} {s t r : List Nat} :
    BcRev (a :: s) (b :: t) (n :: r) ↔ ((a = b ∨ a = 1 ∨ b = 1) ∧ n = if a = 1 then b else a) ∧ BcRev s t r := by
  constructor
  · rintro ⟨h1, h2⟩
    refine ⟨by simpa using h2 0 (by simp), by simp at h1; omega, fun k hk => ?_⟩
    simpa using h2 (k + 1) (by simpa using hk)
  · rintro ⟨h0, h1, h2⟩
    refine ⟨by simp; omega, fun k hk => ?_⟩
    cases k with
    | zero => simpa using h0
    | succ k => simpa using h2 k (by simpa using hk)

theorem broadcastRev_iff : ∀ (s t r : List Nat), broadcastRev s t = .ok r ↔ BcRev s t r := by
  intro s
  induction s with
  | nil =>
    intro t r
    simp only [broadcastRev, Except.ok.injEq]
    constructor
    · rintro rfl; exact ⟨by simp, fun k _ => by simp⟩
    · intro h; exact (bcRev_nil_left h).symm
  | cons a s ih =>
    intro t r
    cases t with
    | nil =>
      simp only [broadcastRev, Except.ok.injEq]
      constructor
      · rintro rfl
        refine ⟨by simp, fun k _ => ⟨by simp, ?_⟩⟩
        simp only [List.getD_nil]
        split
        · rename_i h; rw [h]
        · rfl
      · intro h; exact (bcRev_nil_right h).symm
    | cons b t =>
      cases r with
      | nil =>
        constructor
        · intro h
          simp only [broadcastRev] at h
          split at h
          · cases h
          · split at h <;> cases h
        · rintro ⟨h, -⟩; simp at h
      | cons n r =>
        rw [bcRev_cons, ← ih]
        simp only [broadcastRev, bcAxis]
        by_cases h1 : a = b ∨ b = 1
        · rw [if_pos h1]
          simp only []
          have hn : (if a = 1 then b else a) = a := by
            split
            · rename_i h; rcases h1 with h1 | h1
              · exact h1.symm
              · rw [h, h1]
            · rfl
          rw [hn]
          cases broadcastRev s t with
          | error e => simp
          | ok l =>
            simp only [Except.ok.injEq, List.cons.injEq]
            constructor
            · rintro ⟨rfl, rfl⟩; exact ⟨⟨by tauto, rfl⟩, rfl⟩
            · rintro ⟨⟨_, rfl⟩, rfl⟩; exact ⟨rfl, rfl⟩
        · rw [if_neg h1]
          by_cases h2 : a = 1
          · rw [if_pos h2, if_pos h2]
            simp only []
            cases broadcastRev s t with
            | error e => simp
            | ok l =>
              simp only [Except.ok.injEq, List.cons.injEq]
              constructor
              · rintro ⟨rfl, rfl⟩; exact ⟨⟨by tauto, rfl⟩, rfl⟩
              · rintro ⟨⟨_, rfl⟩, rfl⟩; exact ⟨rfl, rfl⟩
          · rw [if_neg h2]
            simp only [reduceCtorEq, false_iff]
            tauto

theorem broadcastRev_err : ∀ (s t : List Nat) (e : PyErr), broadcastRev s t = .error e → e = .valueError := by
  intro s
  induction s with
  | nil => intro t e h; simp [broadcastRev] at h
  | cons a s ih =>
    intro t e h
    cases t with
    | nil => simp [broadcastRev] at h
    | cons b t =>
      simp only [broadcastRev, bcAxis] at h
      split at h
      · rename_i e' he
        split at he
        · cases he
        · split at he
          · cases he
          · cases he; cases h; rfl
      · split at h
        · rename_i he; cases h; exact ih t _ he
        · cases h

theorem broadcast_iff (s t r : List Nat) : broadcast s t = .ok r ↔ Broadcasts s t r := by
  have : Broadcasts s t r ↔ BcRev s.reverse t.reverse r.reverse := by simp [Broadcasts, BcRev]
  rw [this, ← broadcastRev_iff]
  unfold broadcast
  cases broadcastRev s.reverse t.reverse with
  | error e => simp
  | ok l =>
    simp only [Except.ok.injEq]
    constructor
    · rintro rfl; simp
    · rintro rfl; simp

theorem broadcast_err (s t : List Nat) (h : ∀ r, ¬ Broadcasts s t r) : broadcast s t = .error .valueError := by
  cases hb : broadcast s t with
  | ok r => exact absurd ((broadcast_iff s t r).1 hb) (h r)
  | error e =>
    unfold broadcast at hb
    cases hr : broadcastRev s.reverse t.reverse with
    | ok l => rw [hr] at hb; cases hb
    | error e' =>
      rw [hr] at hb
      cases hb
      rw [broadcastRev_err _ _ _ hr]

theorem pull_spec (s idx : List Nat) : SpreadIdx s idx (pull s idx) := by
  have := bcastIdxRev_spec s.reverse idx.reverse
  refine ⟨by simp [pull, this.1], fun k n hk => ?_⟩
  simp only [pull, List.reverse_reverse]
  exact this.2 k n hk

/-- Positions, from the last axis on. -/
theorem inB_iff_rev (idx shape : List Nat) : Nd.InB idx shape ↔ idx.length = shape.length ∧ ∀ k < shape.length, idx.reverse.getD k 0 < shape.reverse.getD k 1 := by
  have fwd : ∀ (idx shape : List Nat), Nd.InB idx shape ↔ idx.length = shape.length ∧ ∀ k < shape.length, idx.getD k 0 < shape.getD k 1 := by
    intro idx
    induction idx with
    | nil =>
      intro shape
      constructor
      · intro h; cases h; exact ⟨rfl, fun k hk => absurd hk (by simp)⟩
      · rintro ⟨h, -⟩
        cases shape with
        | nil => exact .nil
        | cons _ _ => simp at h
    | cons i idx ih =>
      intro shape
      cases shape with
      | nil => exact ⟨fun h => (nomatch h), fun h => by simp at h⟩
      | cons n shape =>
        constructor
        · intro h
          cases h with
          | cons h1 h2 =>
            obtain ⟨a, b⟩ := (ih shape).1 h2
            refine ⟨by simp [a], fun k hk => ?_⟩
            cases k with
            | zero => simpa using h1
            | succ k => simpa using b k (by simpa using hk)
        · rintro ⟨a, b⟩
          refine .cons (by simpa using b 0 (by simp)) ((ih shape).2 ⟨by simpa using a, fun k hk => ?_⟩)
          simpa using b (k + 1) (by simpa using hk)
  rw [fwd]
  constructor
  · rintro ⟨h1, h2⟩
    refine ⟨h1, fun k hk => ?_⟩
    have := h2 (shape.length - 1 - k) (by omega)
    rw [List.getD_eq_getElem _ _ (by simpa using by omega), List.getD_eq_getElem _ _ (by simpa using hk), List.getElem_reverse, List.getElem_reverse]
    rw [List.getD_eq_getElem _ _ (by omega), List.getD_eq_getElem _ _ (by omega)] at this
    simpa [h1] using this
  · rintro ⟨h1, h2⟩
    refine ⟨h1, fun k hk => ?_⟩
    have := h2 (shape.length - 1 - k) (by omega)
    rw [List.getD_eq_getElem _ _ (by simpa using by omega), List.getD_eq_getElem _ _ (by simpa using by omega), List.getElem_reverse, List.getElem_reverse] at this
    rw [List.getD_eq_getElem _ _ (by omega), List.getD_eq_getElem _ _ (by omega)]
    have e : shape.length - 1 - (shape.length - 1 - k) = k := by omega
    simpa [h1, e] using this

/-- The operand's index lies within the operand. -/
theorem spread_inB {s r idx i : List Nat} (hr : s.length ≤ r.length) (hs : ∀ k < s.length, s.reverse.getD k 1 = 1 ∨ s.reverse.getD k 1 = r.reverse.getD k 1)
    (hidx : Nd.InB idx r) (hi : SpreadIdx s idx i) : Nd.InB i s := by
  rw [inB_iff_rev] at hidx ⊢
  refine ⟨hi.1, fun k hk => ?_⟩
  have h := hi.2 k (s.reverse.getD k 1) (by rw [List.getD_eq_getElem _ _ (by simpa using hk)]; exact List.getElem?_eq_getElem _)
  rw [List.getD_eq_getElem?_getD, h]
  simp only [Option.getD_some]
  split
  · rename_i h1; rw [h1]; exact Nat.one_pos
  · rename_i h1
    rcases hs k hk with h2 | h2
    · exact absurd h2 h1
    · rw [h2]; exact hidx.2 k (by omega)

theorem Broadcasts.left {s t r : List Nat} (h : Broadcasts s t r) : s.length ≤ r.length ∧
    ∀ k < s.length, s.reverse.getD k 1 = 1 ∨ s.reverse.getD k 1 = r.reverse.getD k 1 := by
  obtain ⟨h1, h2⟩ := h
  refine ⟨by omega, fun k hk => ?_⟩
  have := (h2 k (by omega)).2
  split at this
  · left; assumption
  · right; exact this.symm

theorem Broadcasts.right {s t r : List Nat} (h : Broadcasts s t r) : t.length ≤ r.length ∧
    ∀ k < t.length, t.reverse.getD k 1 = 1 ∨ t.reverse.getD k 1 = r.reverse.getD k 1 := by
  obtain ⟨h1, h2⟩ := h
  refine ⟨by omega, fun k hk => ?_⟩
  obtain ⟨a, b⟩ := h2 k (by omega)
  split at b
  · right; exact b.symm
  · rename_i hne
    rcases a with a | a | a
    · right; rw [b, a]
    · exact absurd a hne
    · left; exact a

/-! ## C249 -/

theorem finish_shape {K δ α : Type} (o : Option (K × List δ)) (s : List Nat) (g : List Nat → α) : (finish o s g).shape = s := by
  unfold finish
  repeat' split
  all_goals simp_all [Val.shape]

theorem finish_at {K δ α : Type} (o : Option (K × List δ)) (s : List Nat) (g : List Nat → α) (idx : List Nat) (h : Nd.InB idx s) : (finish o s g).at idx = g idx := by
  have h0 : s = [] → idx = [] := by rintro rfl; cases h; rfl
  unfold finish
  repeat' split
  all_goals simp_all [Val.at]

/-- **C249**: an operation on two numbers or arrays, with units or without, combines shapes by numpy's rule and computes every number of the result from the
numbers at the corresponding positions; shapes that do not combine are a ValueError. -/
theorem C249_elementwise {K δ α β γ : Type} (f : α → β → γ) (x : Val K δ α) (y : Val K δ β) :
    (∀ r, Broadcasts x.shape y.shape r → ∃ z, ufunc2 f x y = .ok z ∧ z.shape = r ∧
      ∀ idx, Nd.InB idx r → ∃ i j, SpreadIdx x.shape idx i ∧ SpreadIdx y.shape idx j ∧ Nd.InB i x.shape ∧ Nd.InB j y.shape ∧ z.at idx = f (x.at i) (y.at j)) ∧
    ((∀ r, ¬ Broadcasts x.shape y.shape r) → ufunc2 f x y = .error .valueError) := by
  constructor
  · intro r hr
    refine ⟨_, by unfold ufunc2; rw [(broadcast_iff _ _ _).2 hr], finish_shape _ _ _, fun idx hidx => ?_⟩
    refine ⟨_, _, pull_spec _ _, pull_spec _ _, spread_inB hr.left.1 hr.left.2 hidx (pull_spec _ _), spread_inB hr.right.1 hr.right.2 hidx (pull_spec _ _), ?_⟩
    rw [finish_at _ _ _ _ hidx]
  · intro h
    unfold ufunc2
    rw [broadcast_err _ _ h]

/-- **C249**, functions of one array: same shape, every number by itself. -/
theorem C249_function {K δ α β : Type} (f : α → β) (x : Val K δ α) :
    (ufunc1 f x).shape = x.shape ∧ ∀ idx, Nd.InB idx x.shape → (ufunc1 f x).at idx = f (x.at idx) :=
  ⟨finish_shape _ _ _, fun idx h => finish_at _ _ _ idx h⟩

/-- **C249, units**: the result of an operation whose first operand with units is `a` has units if and only if it has as many axes as `a`, and then `a`'s
class and dimensions; without an operand with units the result has none; a function of one array keeps class and dimensions. -/
theorem C249_units {K δ α β γ : Type} (f : α → β → γ) (c : K) (a : Awu δ α) (a' : Awu δ β) (ha : a.dims.length = a.shape.length)
    (ha' : a'.dims.length = a'.shape.length) :
    (∀ (y : Val K δ β) (z : Val K δ γ), ufunc2 f (.units c a) y = .ok z →
      ((∃ c' r, z = .units c' r) ↔ z.shape.length = a.shape.length) ∧ ∀ c' r, z = .units c' r → c' = c ∧ r.dims = a.dims) ∧
    (∀ (x : Val K δ α) (z : Val K δ γ), (∀ c' r, x ≠ .units c' r) → ufunc2 f x (.units c a') = .ok z →
      ((∃ c' r, z = .units c' r) ↔ z.shape.length = a'.shape.length) ∧ ∀ c' r, z = .units c' r → c' = c ∧ r.dims = a'.dims) ∧
    (∀ (x : Val K δ α) (y : Val K δ β) (z : Val K δ γ), (∀ c' r, x ≠ .units c' r) → (∀ c' r, y ≠ .units c' r) → ufunc2 f x y = .ok z →
      ∀ c' r, z ≠ .units c' r) ∧
    (∀ g : α → γ, ∃ r, ufunc1 g (.units c a : Val K δ α) = .units c r ∧ r.dims = a.dims ∧ r.shape = a.shape) := by
  have key : ∀ (ds : List δ) (s : List Nat) (g : List Nat → γ),
      ((∃ c' r, finish (some (c, ds)) s g = .units c' r) ↔ (finish (some (c, ds)) s g).shape.length = ds.length) ∧
        ∀ c' r, finish (some (c, ds)) s g = .units c' r → c' = c ∧ r.dims = ds := by
    intro ds s g
    by_cases h : ds.length = s.length
    · simp [finish, h, Val.shape]
    · have h' : ¬ s.length = ds.length := fun e => h e.symm
      by_cases h0 : s = []
      · subst h0
        have hd : ds ≠ [] := fun e => h (by rw [e]; rfl)
        have hd' : ¬ 0 = ds.length := fun e => hd (List.length_eq_zero_iff.mp e.symm)
        simp [finish, hd, hd', Val.shape]
      · simp [finish, h, h0, Val.shape, h']
  refine ⟨fun y z h => ?_, fun x z hx h => ?_, fun x y z hx hy h => ?_, fun g => ?_⟩
  · unfold ufunc2 at h
    split at h
    · cases h
    · cases h
      rw [← ha]
      exact key _ _ _
  · unfold ufunc2 at h
    split at h
    · cases h
    · cases h
      have hxo : x.owner = none := by
        cases x with
        | num _ => rfl
        | plain _ _ => rfl
        | units c' r => exact absurd rfl (hx c' r)
      rw [← ha', hxo]
      exact key _ _ _
  · unfold ufunc2 at h
    split at h
    · cases h
    · cases h
      have hxo : x.owner = none := by
        cases x with
        | num _ => rfl
        | plain _ _ => rfl
        | units c' r => exact absurd rfl (hx c' r)
      have hyo : y.owner = none := by
        cases y with
        | num _ => rfl
        | plain _ _ => rfl
        | units c' r => exact absurd rfl (hy c' r)
      intro c' r
      rw [hxo, hyo]
      simp only [finish, Option.or]
      split <;> simp
  · refine ⟨⟨a.shape, a.dims, fun idx => g (a.get idx)⟩, ?_, rfl, rfl⟩
    simp [ufunc1, finish, Val.owner, Val.shape, ha, Val.at]

example := C249_units (K := Unit) (fun x y : Int => x + y) () (⟨[2], [()], fun _ => 1⟩ : Awu Unit Int) ⟨[3, 2], [(), ()], fun _ => 1⟩ rfl rfl

/-- Three frames of two numbers plus a row of two numbers. -/
example : Broadcasts [3, 2] [2] [3, 2] ∧ Broadcasts [3, 1] [2] [3, 2] ∧ ∀ r, ¬ Broadcasts [3, 2] [3] r := by
  refine ⟨⟨rfl, ?_⟩, ⟨rfl, ?_⟩, ?_⟩
  · intro k hk
    have : k = 0 ∨ k = 1 := by simp at hk; omega
    rcases this with rfl | rfl <;> simp
  · intro k hk
    have : k = 0 ∨ k = 1 := by simp at hk; omega
    rcases this with rfl | rfl <;> simp
  · rintro r ⟨h1, h2⟩
    have := h2 0 (by rw [h1]; simp)
    simp at this

/-! ## C250: expressions -/

/-- An expression of one array: the array itself, numbers and numpy arrays, functions, operators. -/
inductive Expr (α : Type) where
  | self
  | const (shape : List Nat) (get : List Nat → α)
  | un (f : α → α) (e : Expr α)
  | bin (f : α → α → α) (e e' : Expr α)

/-- Evaluating the expression; constants without axes are numbers. -/
def Expr.eval {K δ α : Type} (c : K) (a : Awu δ α) : Expr α → Except PyErr (Val K δ α)
  | .self => .ok (.units c a)
  | .const s g => .ok (if s = [] then .num (g []) else .plain s g)
  | .un f e =>
    match e.eval c a with
    | .error x => .error x
    | .ok v => .ok (ufunc1 f v)
  | .bin f e e' =>
    match e.eval c a with
    | .error x => .error x
    | .ok v =>
      match e'.eval c a with
      | .error x => .error x
      | .ok v' => ufunc2 f v v'

/-- The array occurs in the expression. -/
def Expr.uses {α : Type} : Expr α → Prop
  | .self => True
  | .const _ _ => False
  | .un _ e => e.uses
  | .bin _ e e' => e.uses ∨ e'.uses

/-- All constants fit into the shape. -/
def Expr.Fits {α : Type} (shape : List Nat) : Expr α → Prop
  | .self => True
  | .const s _ => FitsIn s shape
  | .un _ e => e.Fits shape
  | .bin _ e e' => e.Fits shape ∧ e'.Fits shape

/-- The number the expression stands for at a position of the array. -/
inductive Expr.Means {α : Type} (get : List Nat → α) (idx : List Nat) : Expr α → α → Prop
  | self : Means get idx .self (get idx)
  | const {s g i} : SpreadIdx s idx i → Means get idx (.const s g) (g i)
  | un {f e x} : Means get idx e x → Means get idx (.un f e) (f x)
  | bin {f e e' x y} : Means get idx e x → Means get idx e' y → Means get idx (.bin f e e') (f x y)

theorem fitsIn_iff (s t : List Nat) : FitsIn s t ↔ s.length ≤ t.length ∧ ∀ k < s.length, s.reverse.getD k 1 = 1 ∨ s.reverse.getD k 1 = t.reverse.getD k 1 := by
  unfold FitsIn Spreads
  constructor
  · rintro ⟨h1, h2⟩
    refine ⟨h1, fun k hk => ?_⟩
    rcases h2 k (s.reverse.getD k 1) (by rw [List.getD_eq_getElem _ _ (by simpa using hk)]; exact List.getElem?_eq_getElem _) with h | h
    · exact Or.inl h
    · right; simp [List.getD_eq_getElem?_getD, h]
  · rintro ⟨h1, h2⟩
    refine ⟨h1, fun k n hk => ?_⟩
    have hlt : k < s.length := by
      by_contra hc
      rw [List.getElem?_eq_none (by simpa using by omega)] at hk
      cases hk
    have e : s.reverse.getD k 1 = n := by rw [List.getD_eq_getElem?_getD, hk]; rfl
    rcases h2 k hlt with h | h
    · left; rw [← e]; exact h
    · right
      rw [e] at h
      rw [h, List.getD_eq_getElem _ _ (by simpa using by omega)]
      exact List.getElem?_eq_getElem _

theorem fitsIn_refl (s : List Nat) : FitsIn s s := (fitsIn_iff s s).2 ⟨le_refl _, fun _ _ => Or.inr rfl⟩

theorem getD_long (l : List Nat) (k : Nat) (h : l.length ≤ k) : l.reverse.getD k 1 = 1 := by
  rw [List.getD_eq_default _ _ (by simpa using h)]

theorem fitsIn_all {s t : List Nat} (h : FitsIn s t) (k : Nat) : s.reverse.getD k 1 = 1 ∨ s.reverse.getD k 1 = t.reverse.getD k 1 := by
  by_cases hk : k < s.length
  · exact ((fitsIn_iff s t).1 h).2 k hk
  · exact Or.inl (getD_long s k (by omega))

/-- Shapes that fit into a third combine to one that fits. -/
theorem fits_combine {s s' t : List Nat} (h : FitsIn s t) (h' : FitsIn s' t) : ∃ r, Broadcasts s s' r ∧ FitsIn r t := by
  have hr : ∃ r : List Nat, r.length = max s.length s'.length ∧ ∀ k, r.reverse.getD k 1 = if s.reverse.getD k 1 = 1 then s'.reverse.getD k 1 else s.reverse.getD k 1 := by
    refine ⟨((List.range (max s.length s'.length)).map fun k => if s.reverse.getD k 1 = 1 then s'.reverse.getD k 1 else s.reverse.getD k 1).reverse, by simp, fun k => ?_⟩
    rw [List.reverse_reverse]
    by_cases hk : k < max s.length s'.length
    · rw [List.getD_eq_getElem _ _ (by simpa using hk)]; simp
    · rw [List.getD_eq_default _ _ (by simpa using hk), getD_long s k (by omega), getD_long s' k (by omega)]; simp
  obtain ⟨r, h1, h2⟩ := hr
  refine ⟨r, ⟨h1, fun k hk => ⟨?_, h2 k⟩⟩, (fitsIn_iff _ _).2 ⟨?_, fun k hk => ?_⟩⟩
  · rcases fitsIn_all h k with a | a
    · tauto
    · rcases fitsIn_all h' k with b | b
      · tauto
      · left; rw [a, b]
  · have := h.1; have := h'.1; omega
  · rw [h2]
    split
    · exact fitsIn_all h' k
    · exact fitsIn_all h k

theorem combine_full {s t : List Nat} (h : FitsIn s t) : Broadcasts s t t ∧ Broadcasts t s t := by
  refine ⟨⟨by have := h.1; omega, fun k _ => ?_⟩, ⟨by have := h.1; omega, fun k _ => ?_⟩⟩
  · rcases fitsIn_all h k with a | a
    · exact ⟨Or.inr (Or.inl a), by rw [if_pos a]⟩
    · exact ⟨Or.inl a, by rw [a]; split <;> rfl⟩
  · rcases fitsIn_all h k with a | a
    · refine ⟨Or.inr (Or.inr a), ?_⟩
      split
      · rename_i h1; rw [a, h1]
      · rfl
    · refine ⟨Or.inl a.symm, ?_⟩
      rw [a]; split <;> rfl

theorem broadcasts_unique {s t r r' : List Nat} (h : Broadcasts s t r) (h' : Broadcasts s t r') : r = r' := by
  have a := (broadcast_iff _ _ _).2 h
  rw [(broadcast_iff _ _ _).2 h'] at a
  exact (Except.ok.inj a).symm

/-- Reading a number of a constant through the result's position, or the array's. -/
theorem spread_trans {s r t idx i j : List Nat} (h1 : FitsIn s r) (h2 : FitsIn r t) (hj : SpreadIdx r idx j) (hi : SpreadIdx s j i) : SpreadIdx s idx i := by
  refine ⟨hi.1, fun k n hk => ?_⟩
  rw [hi.2 k n hk]
  split
  · rfl
  · rename_i hn
    have hlt : k < s.length := by
      by_contra hc
      rw [List.getElem?_eq_none (by simpa using by omega)] at hk
      cases hk
    have hr : r.reverse[k]? = some n := (h1.2 k n hk).resolve_left hn
    have := hj.2 k n hr
    rw [List.getD_eq_getElem?_getD, this]
    simp [hn]

theorem spread_self {t idx j : List Nat} (hidx : Nd.InB idx t) (hj : SpreadIdx t idx j) : j = idx := by
  have e : SpreadIdx t idx idx := by
    refine ⟨hidx.length, fun k n hk => ?_⟩
    have hlt : k < t.length := by
      by_contra hc
      rw [List.getElem?_eq_none (by simpa using by omega)] at hk
      cases hk
    have hl := hidx.length
    have hb := ((inB_iff_rev _ _).1 hidx).2 k hlt
    rw [List.getD_eq_getElem?_getD (l := t.reverse), hk, Option.getD_some] at hb
    rw [List.getD_eq_getElem _ _ (by simpa using by omega)] at hb ⊢
    rw [List.getElem?_eq_getElem (by simpa using by omega)]
    congr 1
    split
    · omega
    · rfl
  exact hj.unique e

theorem finish_units {K δ α : Type} {c : K} {ds : List δ} {shape : List Nat} {get : List Nat → α} (h : ds.length = shape.length) :
    finish (some (c, ds)) shape get = .units c ⟨shape, ds, get⟩ := if_neg (fun hc => hc h)

/-- **C250**: an expression built from an array with units, functions, operators, and numbers and numpy arrays that fit its shape, of any size, is an array of the same class, shape
and dimensions; every number is the expression's value for the numbers at that position. -/
theorem C250_expression {K δ α : Type} (c : K) (a : Awu δ α) (ha : a.dims.length = a.shape.length) (e : Expr α) (hu : e.uses) (hf : e.Fits a.shape) :
    ∃ b, e.eval c a = .ok (.units c b) ∧ b.shape = a.shape ∧ b.dims = a.dims ∧ ∀ idx, Nd.InB idx a.shape → e.Means a.get idx (b.get idx) := by
  -- a subexpression is the array's shape with its units, or a constant that fits
  have key : ∀ e : Expr α, e.Fits a.shape → ∃ v, e.eval c a = .ok v ∧ FitsIn v.shape a.shape ∧
      (e.uses → v.shape = a.shape ∧ v.owner = some (c, a.dims)) ∧ (¬ e.uses → v.owner = none) ∧
      ∀ idx, Nd.InB idx a.shape → ∀ i, SpreadIdx v.shape idx i → e.Means a.get idx (v.at i) := by
    intro e
    induction e with
    | self =>
      intro _
      refine ⟨_, rfl, fitsIn_refl _, fun _ => ⟨rfl, rfl⟩, fun h => absurd trivial h, fun idx hidx i hi => ?_⟩
      rw [spread_self hidx hi]
      exact .self
    | const s g =>
      intro hf
      have hsh : (if s = [] then Val.num (g []) else .plain s g : Val K δ α).shape = s := by split <;> simp_all [Val.shape]
      refine ⟨_, rfl, by rw [hsh]; exact hf, fun h => absurd h (by simp [Expr.uses]), fun _ => by split <;> rfl, fun idx hidx i hi => ?_⟩
      rw [hsh] at hi
      have : (if s = [] then Val.num (g []) else .plain s g : Val K δ α).at i = g i := by
        split
        · rename_i h
          subst h
          have : i = [] := List.length_eq_zero_iff.1 hi.1
          rw [this]; rfl
        · rfl
      rw [this]
      exact .const hi
    | un f e ih =>
      intro hf
      obtain ⟨v, h1, h2, h3, h4, h5⟩ := ih hf
      have hsh : (ufunc1 f v).shape = v.shape := finish_shape _ _ _
      refine ⟨ufunc1 f v, by simp only [Expr.eval, h1], by rw [hsh]; exact h2, ?_, ?_, ?_⟩
      · intro hu
        obtain ⟨a1, a2⟩ := h3 hu
        refine ⟨by rw [hsh, a1], ?_⟩
        unfold ufunc1
        rw [a2, a1, finish_units ha]
        rfl
      · intro hu
        unfold ufunc1 finish
        rw [h4 hu]
        simp only []
        split <;> rfl
      · intro idx hidx i hi
        rw [hsh] at hi
        rw [ufunc1, finish_at _ _ _ _ (spread_inB ((fitsIn_iff _ _).1 h2).1 ((fitsIn_iff _ _).1 h2).2 hidx hi)]
        exact .un (h5 idx hidx i hi)
    | bin f e e' ih ih' =>
      intro hf
      obtain ⟨v, h1, h2, h3, h4, h5⟩ := ih hf.1
      obtain ⟨v', g1, g2, g3, g4, g5⟩ := ih' hf.2
      obtain ⟨r, hr, hrt⟩ := fits_combine h2 g2
      have hev : (Expr.bin f e e').eval c a = ufunc2 f v v' := by simp only [Expr.eval, h1, g1]
      have hz : ufunc2 f v v' = .ok (finish (v.owner.or v'.owner) r fun idx => f (v.at (pull v.shape idx)) (v'.at (pull v'.shape idx))) := by
        unfold ufunc2; rw [(broadcast_iff _ _ _).2 hr]
      refine ⟨_, by rw [hev, hz], by rw [finish_shape]; exact hrt, ?_, ?_, ?_⟩
      · intro hu
        have hrs : r = a.shape := by
          by_cases hue : e.uses
          · rw [(h3 hue).1] at hr
            exact broadcasts_unique hr (combine_full g2).2
          · have hue' : e'.uses := hu.resolve_left hue
            rw [(g3 hue').1] at hr
            exact broadcasts_unique hr (combine_full h2).1
        have how : v.owner.or v'.owner = some (c, a.dims) := by
          by_cases hue : e.uses
          · rw [(h3 hue).2]; rfl
          · rw [h4 hue, (g3 (hu.resolve_left hue)).2]; rfl
        refine ⟨by rw [finish_shape, hrs], ?_⟩
        rw [how, hrs, finish_units ha]
        rfl
      · intro hu
        have hu' : ¬ e.uses ∧ ¬ e'.uses := not_or.1 hu
        unfold finish
        rw [h4 hu'.1, g4 hu'.2]
        simp only [Option.or_none]
        split <;> rfl
      · intro idx hidx i hi
        rw [finish_shape] at hi
        rw [finish_at _ _ _ _ (spread_inB ((fitsIn_iff _ _).1 hrt).1 ((fitsIn_iff _ _).1 hrt).2 hidx hi)]
        have f1 : FitsIn v.shape r := (fitsIn_iff _ _).2 hr.left
        have f2 : FitsIn v'.shape r := (fitsIn_iff _ _).2 hr.right
        exact .bin (h5 idx hidx _ (spread_trans f1 hrt hi (pull_spec _ _))) (g5 idx hidx _ (spread_trans f2 hrt hi (pull_spec _ _)))
  obtain ⟨v, h1, h2, h3, -, h5⟩ := key e hf
  obtain ⟨a1, a2⟩ := h3 hu
  cases v with
  | num x => simp [Val.owner] at a2
  | plain s g => simp [Val.owner] at a2
  | units c' b =>
    simp only [Val.owner, Option.some.injEq, Prod.mk.injEq] at a2
    obtain ⟨rfl, hd⟩ := a2
    refine ⟨b, h1, a1, hd, fun idx hidx => h5 idx hidx idx ?_⟩
    have := pull_spec a.shape idx
    rw [show Val.shape (.units c' b : Val K δ α) = a.shape from a1]
    have e := spread_self hidx this
    rw [e] at this
    exact this

/-- What an expression means at a position is one number. -/
theorem Expr.Means.unique {α : Type} {get : List Nat → α} {idx : List Nat} {e : Expr α} {x y : α} (h : e.Means get idx x) (h' : e.Means get idx y) : x = y := by
  induction h generalizing y with
  | self => cases h'; rfl
  | const hi => cases h' with | const hj => rw [hi.unique hj]
  | un _ ih => cases h' with | un h2 => rw [ih h2]
  | bin _ _ ih ih' => cases h' with | bin h2 h3 => rw [ih h2, ih' h3]

/-- `(2 * a + [10, 20]).abs()`-like: three frames of two numbers. -/
example : ∃ b, (Expr.un (fun x : Int => -x) (.bin (· + ·) (.bin (· * ·) (.const [] fun _ => 2) .self) (.const [2] fun i => 10 * (i.headD 0 + 1)))).eval ()
      (⟨[3, 2], ["time", "channel"], fun i => (i.headD 0 : Int) + i.tail.headD 0⟩ : Awu String Int) = .ok (.units () b) ∧
    b.shape = [3, 2] ∧ b.dims = ["time", "channel"] ∧ b.get [2, 1] = -26 := ⟨_, rfl, rfl, rfl, by decide⟩

/-! ## C251-C255: what does not hold -/

/-- **C251, refuted**: arrays whose axes mean different things cannot be combined.  Arrays of one shape are combined whatever their dimensions are, and the result has those of the operand
written first; concatenation of the same two arrays is refused. -/
theorem C251_mixed_refuted {K δ κ α : Type} (ops : DimOps δ κ) (f : α → α → α) (c : K) (a b : Awu δ α) (ha : a.dims.length = a.shape.length) (hb : b.dims.length = b.shape.length)
    (hs : b.shape = a.shape) (hne : dimsEq ops b.dims a.dims = .ok false) :
    (∃ r, ufunc2 f (.units c a) (.units c b) = .ok (.units c r) ∧ r.dims = a.dims ∧ r.shape = a.shape) ∧
    (∃ r, ufunc2 f (.units c b) (.units c a) = .ok (.units c r) ∧ r.dims = b.dims ∧ r.shape = a.shape) ∧
    concat ops [a, b] 0 = .error .valueError := by
  have h := (broadcast_iff _ _ _).2 (combine_full (fitsIn_refl a.shape)).1
  refine ⟨⟨⟨a.shape, a.dims, fun idx => f (a.get (pull a.shape idx)) (b.get (pull a.shape idx))⟩, ?_, rfl, rfl⟩,
    ⟨⟨a.shape, b.dims, fun idx => f (b.get (pull a.shape idx)) (a.get (pull a.shape idx))⟩, ?_, rfl, rfl⟩, ?_⟩
  · unfold ufunc2
    simp only [Val.shape, hs, h, Val.owner, Option.some_or, finish_units ha]
    rfl
  · unfold ufunc2
    rw [hs] at hb
    simp only [Val.shape, hs, h, Val.owner, Option.some_or, finish_units hb]
    rfl
  · simp [concat, allMatch, hne]

/-- **C252, refuted**: the dimensions of a result describe its axes.  One frame combined with `n` frames gives `n` frames whose time dimension says one. -/
theorem C252_stale_refuted {K φ α : Type} [Field φ] [LinearOrder φ] (X : Freq.NumExt φ) (f : α → α → α) (c : K) (fr du : Int) (n : Nat) (hn : 1 < n) (ga gb : List Nat → α) :
    ∃ r, ufunc2 f (.units c (⟨[1], [.time fr du (some 1)], ga⟩ : Awu (LibDim φ) α)) (.units c ⟨[n], [.time fr du (some n)], gb⟩) = .ok (.units c r) ∧
      r.shape = [n] ∧ r.dims = [.time fr du (some 1)] ∧ ¬ Settled (libOps X) r := by
  have h : broadcast [1] [n] = .ok [n] := (broadcast_iff _ _ _).2 (combine_full ⟨by simp, by
    intro k m hk
    left
    cases k with
    | zero => simpa using hk.symm
    | succ k => simp at hk⟩).1
  refine ⟨⟨[n], [.time fr du (some 1)], fun idx => f (ga (pull [1] idx)) (gb (pull [n] idx))⟩, ?_, rfl, rfl, ?_⟩
  · unfold ufunc2
    simp only [Val.shape, h, Val.owner, Option.some_or]
    rfl
  · intro hs
    have := hs.own 0 (by simp)
    simp [libOps] at this
    omega

/-- **C253, refuted**: combining an array with units and one with more axes keeps units.  The result has them if the one with more axes is written first, and is a bare numpy
array if it is written second. -/
theorem C253_order_refuted {K δ α : Type} (f : α → α → α) (c : K) (a b : Awu δ α) (n : Nat) (ha : a.dims.length = a.shape.length) (hb : b.dims.length = b.shape.length)
    (hs : b.shape = n :: a.shape) :
    (∃ r, ufunc2 f (.units c b) (.units c a) = .ok (.units c r) ∧ r.shape = b.shape ∧ r.dims = b.dims) ∧
    (∃ g, ufunc2 f (.units c a) (.units c b) = .ok (.plain b.shape g)) := by
  have hfit : FitsIn a.shape b.shape := by
    refine ⟨by simp [hs], fun k m hk => Or.inr ?_⟩
    rw [hs, List.reverse_cons, List.getElem?_append_left]
    · exact hk
    · by_contra hc
      rw [List.getElem?_eq_none (by omega)] at hk
      cases hk
  have h1 := (broadcast_iff _ _ _).2 (combine_full hfit).2
  have h2 := (broadcast_iff _ _ _).2 (combine_full hfit).1
  constructor
  · refine ⟨⟨b.shape, b.dims, fun idx => f (b.get (pull b.shape idx)) (a.get (pull a.shape idx))⟩, ?_, rfl, rfl⟩
    unfold ufunc2
    simp only [Val.shape, h1, Val.owner, Option.some_or, finish_units hb]
    rfl
  · refine ⟨fun idx => f (a.get (pull a.shape idx)) (b.get (pull b.shape idx)), ?_⟩
    unfold ufunc2
    simp only [Val.shape, h2, Val.owner, Option.some_or, finish]
    exact congrArg Except.ok ((if_pos (by rw [ha, hs]; simp)).trans (if_neg (by rw [hs]; simp)))

/-- **C254, refuted**: `mean`, `min`, `std` along an axis keep the dimensions of the other axes, as `sum` and `max` do.  For an array with two axes the result is a bare numpy array; with `keepdims`
it has the old dimensions, with the old size on the axis that now has one element. -/
theorem C254_mean_refuted {K δ κ α : Type} (ops : DimOps δ κ) (red : List α → α) (c : K) (n k : Nat) (d0 d1 : δ) (get : List Nat → α) (hi : ops.install d1 k = .ok d1) :
    (∃ g, npReduce red c (⟨[n, k], [d0, d1], get⟩ : Awu δ α) [0] false = .ok (.plain [k] g)) ∧
    (∃ r, npReduce red c (⟨[n, k], [d0, d1], get⟩ : Awu δ α) [0] true = .ok (.units c r) ∧ r.shape = [1, k] ∧ r.dims = [d0, d1]) ∧
    (∃ r, Awu.reduce ops red (⟨[n, k], [d0, d1], get⟩ : Awu δ α) [0] false = .ok r ∧ r.shape = [k] ∧ r.dims = [d1]) := by
  have hno : normList 2 [0] = .ok [0] := by rfl
  refine ⟨⟨(fun idx => red (((allIdx [n, k]).filter fun s => project (fun j => decide (j ∈ [0])) false 0 s = idx).map get)), ?_⟩, ⟨⟨[1, k], [d0, d1], (fun idx => red (((allIdx [n, k]).filter fun s => project (fun j => decide (j ∈ [0])) true 0 s = idx).map get))⟩, ?_, rfl, rfl⟩,
    ⟨⟨[k], [d1], (fun idx => red (((allIdx [n, k]).filter fun s => project (fun j => decide (j ∈ [0])) false 0 s = idx).map get))⟩, ?_, rfl, rfl⟩⟩
  · unfold npReduce
    simp only [List.length_cons, List.length_nil, Nat.zero_add, Nat.reduceAdd, hno]
    rw [if_neg (by simp)]
    rfl
  · unfold npReduce
    simp only [List.length_cons, List.length_nil, Nat.zero_add, Nat.reduceAdd, hno]
    rw [if_neg (by simp)]
    rfl
  · unfold Awu.reduce
    simp only [List.length_cons, List.length_nil, Nat.zero_add, Nat.reduceAdd, hno]
    rw [if_neg (by simp)]
    simp only [List.map_cons, List.map_nil, lt_irrefl, if_false]
    simp [reducedShape, reducedDims, Awu.new, installAll, hi]

/-- **C254**: an axis named twice is refused with ValueError. -/
theorem C254_repeated {K δ α : Type} (red : List α → α) (c : K) (a : Awu δ α) (k : Nat) (hk : k < a.shape.length) (keep : Bool) :
    npReduce red c a [k, k] keep = .error .valueError := by
  have hn : normIndex a.shape.length k = .ok k := by
    unfold normIndex
    rw [if_neg (by omega), if_neg (by omega)]
    simp
  have : normList a.shape.length [k, k] = .ok [k, k] := by
    simp [normList, hn]
  unfold npReduce
  simp only [this]
  exact if_pos (by simp)

/-- **C255, refuted**: `transpose()` and `T` are the same, and `flatten()` gives one axis with one dimension.  `T` moves the dimensions along with the axes; `transpose()` leaves them where they were, so
that each axis has the other's dimension; `flatten()` has as many dimensions as before. -/
theorem C255_transpose_refuted {δ κ α : Type} (ops : DimOps δ κ) (n k : Nat) (d0 d1 : δ) (get : List Nat → α) (h0 : ops.install d0 n = .ok d0) (h1 : ops.install d1 k = .ok d1) :
    (∃ t, Awu.transpose ops (⟨[n, k], [d0, d1], get⟩ : Awu δ α) = .ok t ∧ t.shape = [k, n] ∧ t.dims = [d1, d0] ∧ ∀ i j, t.get [j, i] = get [i, j]) ∧
    ((npTranspose (⟨[n, k], [d0, d1], get⟩ : Awu δ α)).shape = [k, n] ∧ (npTranspose (⟨[n, k], [d0, d1], get⟩ : Awu δ α)).dims = [d0, d1] ∧
      ∀ i j, (npTranspose (⟨[n, k], [d0, d1], get⟩ : Awu δ α)).get [j, i] = get [i, j]) ∧
    ((npFlatten (⟨[n, k], [d0, d1], get⟩ : Awu δ α)).shape = [n * k] ∧ (npFlatten (⟨[n, k], [d0, d1], get⟩ : Awu δ α)).dims = [d0, d1]) := by
  refine ⟨⟨⟨[k, n], [d1, d0], fun idx => get idx.reverse⟩, ?_, rfl, rfl, fun _ _ => rfl⟩, ⟨rfl, rfl, fun _ _ => rfl⟩, ⟨?_, rfl⟩⟩
  · simp [Awu.transpose, Awu.new, installAll, h0, h1]
  · simp [npFlatten, Nd.size]

/-! ## C256: augmented assignment -/

theorem inPlace_spec {K δ α : Type} (f : α → α → α) (m m' : Mem α) (x : Awu δ Nat) (hx : ∀ p q, Nd.InB p x.shape → Nd.InB q x.shape → x.get p = x.get q → p = q) (v : Val K δ α)
    (h : inPlace f m x v = .ok m') :
    Broadcasts x.shape v.shape x.shape ∧ m'.next = m.next ∧
    (∀ j, Nd.InB j x.shape → m'.cells (x.get j) = f (m.cells (x.get j)) (v.at (pull v.shape j))) ∧
    (∀ i, (∀ j, Nd.InB j x.shape → x.get j ≠ i) → m'.cells i = m.cells i) := by
  unfold inPlace at h
  split at h
  · cases h
  · rename_i s hs
    split at h
    · rename_i he
      subst he
      cases h
      refine ⟨(broadcast_iff _ _ _).1 hs, storeAll_next _ _, ?_, ?_⟩
      · intro j hj
        obtain ⟨k, hk, hjk⟩ := List.getElem_of_mem ((mem_allIdx x.shape j).2 hj)
        have := storeAll_last ((allIdx x.shape).map fun j => (x.get j, f (m.cells (x.get j)) (v.at (pull v.shape j)))) k m (by simpa using hk) ?_
        · simpa only [List.getElem_map, hjk] using this
        · intro k' hk' hlt he
          simp only [List.getElem_map, hjk] at he
          simp only [List.length_map] at hk'
          have hj' := (mem_allIdx _ _).1 (List.getElem_mem hk')
          have hbef : Nd.Before j ((allIdx x.shape)[k']) := by
            have := List.pairwise_iff_getElem.1 (allIdx_sorted x.shape) k k' hk hk' hlt
            rwa [hjk] at this
          rw [hx _ _ hj' hj he] at hbef
          exact before_irrefl _ hbef
      · intro i hi
        apply storeAll_frame
        intro q hq
        obtain ⟨j, hj, rfl⟩ := List.mem_map.1 hq
        exact hi j ((mem_allIdx _ _).1 hj)
    · cases h

/-- **C256**: `a[index] += v` (and `*=`, …) changes, once, exactly the positions that `a[index]` reads, each to the operation's value for its old number and the number of `v` for that place of the selection (the last
place, if a list names a position more than once); all other positions stay. -/
theorem C256_augmented {K δ κ α : Type} (ops : DimOps δ κ) (hn : NoLists ops) (f : α → α → α) (m m' : Mem α) (a : Awu δ Nat) (ha : Held m a) (index : List (Item κ)) (v : Val K δ α)
    (b : Awu δ (List Nat)) (hb : (positions a.shape a.dims).getitem ops index = .ok b) (h : augmented ops f m a index v = .ok m') :
    (∀ j i, Nd.InB j b.shape → (∀ j', Nd.InB j' b.shape → Nd.Before j j' → b.get j' ≠ b.get j) → SpreadIdx v.shape j i →
      (m'.read a).get (b.get j) = f ((m.read a).get (b.get j)) (v.at i)) ∧
    (∀ p, Nd.InB p a.shape → (∀ j, Nd.InB j b.shape → b.get j ≠ p) → (m'.read a).get p = (m.read a).get p) := by
  obtain ⟨vw, hv, h3, h4⟩ := getitem_selects hb
  simp only [positions] at hv h4
  have hin := selects_inB hv
  unfold augmented at h
  split at h
  · cases h
  · rename_i m1 x hx
    split at h
    · cases h
    · rename_i m2 hm2
      have hself : ∀ j, Nd.InB j b.shape → SpreadIdx b.shape j j := by
        intro j hj
        have := pull_spec b.shape j
        rwa [spread_self hj this] at this
      -- the two ways of reading the selection
      have hcase : x.shape = b.shape ∧ (∀ p q, Nd.InB p x.shape → Nd.InB q x.shape → x.get p = x.get q → p = q) ∧
          (∀ j, Nd.InB j b.shape → m1.cells (x.get j) = m.cells (a.get (b.get j))) ∧ (∀ p, Nd.InB p a.shape → m1.cells (a.get p) = m.cells (a.get p)) ∧
          Held m1 a ∧ ((∀ j, Nd.InB j b.shape → x.get j = a.get (b.get j)) ∨ (∀ p j, Nd.InB p a.shape → Nd.InB j b.shape → x.get j ≠ a.get p)) := by
        unfold getitemIn at hx
        split at hx
        · cases hx
        · rename_i r hr
          obtain ⟨v', hv', r3, r4⟩ := getitem_selects hr
          obtain rfl := hv.unique hv'
          split at hx
          · rename_i hsh
            cases hx
            have hnr : NoRepeats index := by
              intro l hl
              unfold sharesMemory at hsh
              rw [Bool.and_eq_true, List.all_eq_true] at hsh
              exact absurd (hsh.1 _ hl) (by simp)
            refine ⟨by rw [r3, h3], ?_, ?_, fun _ _ => rfl, ha, Or.inl ?_⟩
            · intro p q hp hq he
              rw [r4, r4] at he
              rw [r3] at hp hq
              exact selects_inj hn hnr hv p q hp hq (ha.2 _ _ (hin p hp) (hin q hq) he)
            · intro j hj; rw [r4, h4]
            · intro j hj; rw [r4, h4]
          · simp only [Mem.alloc, Mem.read, Except.ok.injEq, Prod.mk.injEq] at hx
            obtain ⟨rfl, rfl⟩ := hx
            have hold : ∀ p, Nd.InB p a.shape → ¬ (m.next ≤ a.get p ∧ a.get p < m.next + Nd.size r.shape) := by
              intro p hp hc
              have := ha.1 p hp
              omega
            refine ⟨by simp only; rw [r3, h3], ?_, ?_, ?_, ⟨?_, ha.2⟩, Or.inr ?_⟩
            · intro p q hp hq he
              simp only at he hp hq
              have e : Nd.ravel r.shape p = Nd.ravel r.shape q := by omega
              rw [← Nd.unravel_ravel hp, ← Nd.unravel_ravel hq, e]
            · intro j hj
              have hj' : Nd.InB j r.shape := by rw [r3, ← h3]; exact hj
              have hlt := Nd.ravel_lt hj'
              refine (if_pos ⟨Nat.le_add_right _ _, Nat.add_lt_add_left hlt _⟩).trans ?_
              show r.get (Nd.unravel r.shape (m.next + Nd.ravel r.shape j - m.next)) |> m.cells |> (· = _)
              rw [Nat.add_sub_cancel_left, Nd.unravel_ravel hj', r4, h4]
            · intro p hp; exact if_neg (hold p hp)
            · intro p hp
              have := ha.1 p hp
              simp only
              omega
            · intro p j hp hj he
              have := ha.1 p hp
              simp only at he
              omega
      obtain ⟨c1, c2, c3, c4, c5, c6⟩ := hcase
      obtain ⟨i1, i2, i3, i4⟩ := inPlace_spec f m1 m2 x c2 v hm2
      have hheld : Held m2 a := ⟨fun p hp => by rw [i2]; exact c5.1 p hp, ha.2⟩
      obtain ⟨-, w2, w3, -⟩ := C241_writes ops m2 m' a hheld index x.shape (fun j => m2.cells (x.get j)) b hb h
      have hpos : ∀ j, Nd.InB j b.shape → Nd.InB (b.get j) a.shape := fun j hj => by rw [h4]; exact hin j (h3 ▸ hj)
      constructor
      · intro j i hj hlast hi
        rw [w2 j j hj hlast (by rw [c1]; exact hself j hj), i3 j (by rw [c1]; exact hj), c3 j hj, (pull_spec v.shape j).unique hi]
        rfl
      · intro p hp hne
        rw [w3 p hp hne]
        simp only [Mem.read]
        rw [i4 _ ?_, c4 p hp]
        intro j hj
        rw [c1] at hj
        rcases c6 with c6 | c6
        · rw [c6 j hj]
          intro he
          exact hne j hj (ha.2 _ _ (hpos j hj) hp he)
        · exact c6 p j hp hj

/-- **C256**, when it works: `a[index] += v` is accepted exactly if `a[index]` can be read and `v` fits into its shape. -/
theorem C256_accepted {K δ κ α : Type} (ops : DimOps δ κ) (f : α → α → α) (m : Mem α) (a : Awu δ Nat) (index : List (Item κ)) (v : Val K δ α)
    (b : Awu δ (List Nat)) (hb : (positions a.shape a.dims).getitem ops index = .ok b) :
    (FitsIn v.shape b.shape → ∃ m', augmented ops f m a index v = .ok m') ∧ (¬ FitsIn v.shape b.shape → augmented ops f m a index v = .error .valueError) := by
  obtain ⟨vw, hv, h3, h4⟩ := getitem_selects hb
  simp only [positions] at hv
  obtain ⟨r, hr, hrs⟩ : ∃ r, a.getitem ops index = .ok r ∧ r.shape = b.shape := by
    obtain ⟨v', hv', e1, e2, e3⟩ := getitem_map hb a.get
    exact ⟨_, e3, rfl⟩
  obtain ⟨m1, x, hx, hxs⟩ : ∃ m1 x, getitemIn ops m a index = .ok (m1, x) ∧ x.shape = b.shape := by
    unfold getitemIn
    rw [hr]
    simp only []
    split
    · exact ⟨_, _, rfl, hrs⟩
    · exact ⟨_, _, rfl, hrs⟩
  have hspread : Spreads x.shape b.shape := by rw [hxs]; intro k n hk; exact Or.inr hk
  constructor
  · intro hf
    have hi : ∃ m2, inPlace f m1 x v = .ok m2 := by
      unfold inPlace
      rw [hxs, (broadcast_iff _ _ _).2 (combine_full hf).2]
      simp only [if_true]
      exact ⟨_, rfl⟩
    obtain ⟨m2, hm2⟩ := hi
    unfold augmented
    rw [hx]
    simp only []
    rw [hm2]
    simp only []
    exact (C241_writable ops m2 a index x.shape _ b hb).1 hspread
  · intro hf
    have hi : inPlace f m1 x v = .error .valueError := by
      unfold inPlace
      cases hbr : broadcast x.shape v.shape with
      | error e =>
        simp only []
        congr 1
        by_contra hc
        have : ∀ r, ¬ Broadcasts x.shape v.shape r := by
          intro r hr'
          rw [(broadcast_iff _ _ _).2 hr'] at hbr
          cases hbr
        rw [broadcast_err _ _ this] at hbr
        exact hc (Except.error.inj hbr).symm
      | ok s =>
        simp only []
        refine if_neg ?_
        intro he
        have h' := (broadcast_iff _ _ _).1 hbr
        rw [he, hxs] at h'
        exact hf ((fitsIn_iff _ _).2 h'.right)
    unfold augmented
    rw [hx]
    simp only []
    rw [hi]

/-- Two channels, four frames: `stereo[1:3] += 10` in memory. -/
example : ∃ m', augmented (libOps (φ := ℚ) noNum) (· + ·) mem8 stereo4 [.slice (some 1) (some 3) none] (.num 10 : Val Unit (LibDim ℚ) Nat) = .ok m' := ⟨_, rfl⟩

example := C249_function (fun x : Nat => x + 1) (.units () stereo4 : Val Unit (LibDim ℚ) Nat)
example := (C249_elementwise (fun x y : Nat => x + y) (.units () stereo4 : Val Unit (LibDim ℚ) Nat) (.num 10 : Val Unit (LibDim ℚ) Nat)).1
example : ∃ b, (Expr.un (fun x : Int => -x) (.bin (· + ·) (.bin (· * ·) (.const [] fun _ => 2) .self) (.const [2] fun i => 10 * (i.headD 0 + 1)))).eval ()
      (⟨[3, 2], ["time", "channel"], fun i => (i.headD 0 : Int) + i.tail.headD 0⟩ : Awu String Int) = .ok (.units () b) ∧ b.shape = [3, 2] := by
  obtain ⟨b, h1, h2, -⟩ := C250_expression () (⟨[3, 2], ["time", "channel"], fun i => (i.headD 0 : Int) + i.tail.headD 0⟩ : Awu String Int) rfl
    (Expr.un (fun x : Int => -x) (.bin (· + ·) (.bin (· * ·) (.const [] fun _ => 2) .self) (.const [2] fun i => 10 * (i.headD 0 + 1))))
    (by simp [Expr.uses]) (by
      simp only [Expr.Fits, FitsIn]
      refine ⟨⟨⟨by decide, fun k n h => by simp at h⟩, trivial⟩, by decide, fun k n h => ?_⟩
      match k, h with
      | 0, h => exact Or.inr h
      | k + 1, h => simp at h)
  exact ⟨b, h1, h2⟩
example := C254_repeated (fun l : List Nat => l.sum) () stereo4 1 (by decide) false
example := C256_augmented (libOps (φ := ℚ) noNum) (C241_lib_noLists noNum) (· + ·) mem8 _ stereo4 stereo4_held [.slice (some 1) (some 3) none] (.num 10 : Val Unit (LibDim ℚ) Nat) _ rfl rfl
example : ∃ m', augmented (libOps (φ := ℚ) noNum) (· + ·) mem8 stereo4 [.slice (some 1) (some 3) none] (.num 10 : Val Unit (LibDim ℚ) Nat) = .ok m' :=
  (C256_accepted (libOps (φ := ℚ) noNum) (· + ·) mem8 stereo4 [.slice (some 1) (some 3) none] (.num 10 : Val Unit (LibDim ℚ) Nat) _ rfl).1 ⟨Nat.zero_le _, fun k n h => by simp [Val.shape] at h⟩

end Zounds.Arr
