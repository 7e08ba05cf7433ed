import Verif.Model.Ops
import Verif.Model.Pipeline
import Mathlib.Data.List.GetD
import Mathlib.Data.List.Nodup
import Mathlib.Data.List.Perm.Subperm
import Mathlib.Tactic.Common

/-!
# C184-C200: operations, versions, pipelines' parts, trained networks
-/

namespace Zounds.Ops
open Zounds

/-! ## dicts -/

theorem get_cons {V : Type} (kv : String × V) (d : Dict V) (k : String) : get (kv :: d) k = if kv.1 = k then some kv.2 else get d k := by
  unfold get
  by_cases h : kv.1 = k
  · simp [h]
  · simp [h]

theorem get_isSome {V : Type} (d : Dict V) (k : String) : (get d k).isSome ↔ k ∈ d.map (·.1) := by
  induction d with
  | nil => simp [get]
  | cons kv d ih =>
    rw [get_cons]
    by_cases h : kv.1 = k
    · simp [h]
    · rw [if_neg h, ih]
      have : k ≠ kv.1 := fun e => h e.symm
      simp [this]

theorem get_none {V : Type} (d : Dict V) (k : String) : get d k = none ↔ k ∉ d.map (·.1) := by
  rw [← get_isSome]
  cases get d k <;> simp

theorem get_map_val {V : Type} (d : Dict V) (k k' : String) (v : V) :
    get (d.map fun kv => if kv.1 = k then (k, v) else kv) k' = if k' = k ∧ k ∈ d.map (·.1) then some v else get d k' := by
  induction d with
  | nil => simp [get]
  | cons kv d ih =>
    rw [List.map_cons, get_cons, ih, get_cons]
    by_cases h1 : kv.1 = k
    · by_cases h2 : k = k'
      · simp [h1, h2]
      · have : k' ≠ k := fun e => h2 e.symm
        simp [h1, h2, this]
    · by_cases h2 : kv.1 = k'
      · have : k' ≠ k := fun e => h1 (h2.trans e)
        simp [h1, h2, this]
      · have h3 : k ≠ kv.1 := fun e => h1 e.symm
        have e : (k ∈ List.map (fun x : String × V => x.1) (kv :: d)) ↔ k ∈ List.map (fun x : String × V => x.1) d := by
          rw [List.map_cons, List.mem_cons]
          exact ⟨fun h => h.resolve_left h3, Or.inr⟩
        simp only [if_neg h1, if_neg h2, e]

theorem get_append {V : Type} (d d' : Dict V) (k : String) : get (d ++ d') k = (get d k).or (get d' k) := by
  induction d with
  | nil => simp [get]
  | cons kv d ih =>
    rw [List.cons_append, get_cons, ih, get_cons]
    by_cases h : kv.1 = k <;> simp [h]

theorem any_key {V : Type} (d : Dict V) (k : String) : (d.any fun kv => kv.1 = k) = true ↔ k ∈ d.map (·.1) := by
  simp [List.any_eq_true]

theorem get_put {V : Type} (d : Dict V) (k k' : String) (v : V) : get (put d k v) k' = if k' = k then some v else get d k' := by
  unfold put
  by_cases h : (d.any fun kv => kv.1 = k) = true
  · rw [if_pos h, get_map_val]
    rw [any_key] at h
    simp only [h, and_true]
  · rw [if_neg h, get_append]
    rw [any_key, ← get_none] at h
    by_cases hk : k' = k
    · subst hk
      rw [h]
      simp [get]
    · have : ¬ k = k' := fun e => hk e.symm
      simp only [hk, if_false]
      rw [get_cons]
      simp [this, get]

theorem put_keys {V : Type} (d : Dict V) (k : String) (v : V) : (put d k v).map (·.1) = if k ∈ d.map (·.1) then d.map (·.1) else d.map (·.1) ++ [k] := by
  unfold put
  by_cases h : (d.any fun kv => kv.1 = k) = true
  · rw [if_pos h, if_pos ((any_key d k).1 h), List.map_map]
    apply List.map_congr_left
    intro kv _
    by_cases h : kv.1 = k <;> simp [h]
  · rw [if_neg h, if_neg (fun hc => h ((any_key d k).2 hc))]
    simp

theorem get_update {V : Type} (b : Dict V) (hb : (b.map (·.1)).Nodup) : ∀ (a : Dict V) (k : String), get (update a b) k = (get b k).or (get a k) := by
  induction b with
  | nil => intro a k; simp [update, get]
  | cons kv b ih =>
    intro a k
    rw [List.map_cons, List.nodup_cons] at hb
    have := ih hb.2 (put a kv.1 kv.2) k
    unfold update at this ⊢
    rw [List.foldl_cons, this, get_put, get_cons]
    by_cases h : kv.1 = k
    · subst h
      rw [if_pos rfl, if_pos rfl, (get_none b kv.1).2 hb.1]
      rfl
    · have : k ≠ kv.1 := fun e => h e.symm
      rw [if_neg this, if_neg h]

/-! ## C184-C186: calling operations -/

/-- **C184, calls**: an operation made of a function without enclosing functions, whose body means the same in the library's module, does what the function itself
does with the keyword arguments of the call, updated with the operation's own, provided that these give every parameter after the first. -/
theorem C184_call {V R : Type} (here : String → Option V) (f : Func V R) (own kw : Dict V) (arg : V) (hown : (own.map (·.1)).Nodup) (hfree : f.code.freevars = [])
    (hbody : ∀ ps extra, f.code.body here ps extra = f.code.body f.globals ps extra)
    (hgiven : ∀ q ∈ f.code.params.tail, q ∈ own.map (·.1) ∨ q ∈ kw.map (·.1)) :
    (Op.ofFunc f own).call here arg kw = call f arg (update kw own) := by
  unfold Op.call Op.ofFunc
  simp only [hfree, ne_eq, not_true_eq_false, if_false]
  unfold call
  have hb : bind ⟨f.code, [], here⟩ arg (update kw own) = bind f arg (update kw own) := by
    unfold bind
    cases hp : f.code.params with
    | nil => rfl
    | cons p ps =>
      simp only []
      have hm : ps.mapM (param [] (update kw own)) = ps.mapM (param f.defaults (update kw own)) := by
        rw [hp] at hgiven
        simp only [List.tail_cons] at hgiven
        clear hp
        induction ps with
        | nil => rfl
        | cons q qs ih =>
          rw [List.mapM_cons, List.mapM_cons, ih (fun q' hq' => hgiven q' (by simp [hq']))]
          have hg : (get (update kw own) q).isSome := by
            rw [get_update own hown]
            rcases hgiven q (by simp) with h | h
            · rw [← get_isSome] at h
              cases hh : get own q <;> simp_all
            · rw [← get_isSome] at h
              cases hh : get own q <;> simp_all
          have : param [] (update kw own) q = param f.defaults (update kw own) q := by
            unfold param
            cases hh : get (update kw own) q with
            | none => rw [hh] at hg; simp at hg
            | some v => rfl
          rw [this]
      rw [hm]
  rw [hb]
  cases bind f arg (update kw own) with
  | error e => rfl
  | ok p => exact hbody _ _

/-- C184: a keyword that is no parameter of the function: a function that takes `**kwargs` gets it there, with every other keyword that is no parameter, in the order of the
call; for any other function it is a TypeError. -/
theorem C184_surplus {V R : Type} (f : Func V R) (p : String) (ps : List String) (hp : f.code.params = p :: ps) (arg : V) (kw : Dict V) (k : String) (hk : k ∈ kw.map (·.1))
    (hk' : k ∉ p :: ps) :
    (f.code.varkw = false → call f arg kw = .error .typeError) ∧
    (f.code.varkw = true → p ∉ kw.map (·.1) → (∀ q ∈ ps, q ∈ kw.map (·.1)) → ∃ vals : List V, vals.length = ps.length ∧ (∀ (i : Nat) v q, ps[i]? = some q → vals[i]? = some v → get kw q = some v) ∧
      call f arg kw = f.code.body f.globals ((p, arg) :: ps.zip vals) (kw.filter fun kv => kv.1 ∉ ps)) := by
  constructor
  · intro hv
    unfold call bind
    rw [hp]
    simp only []
    split
    · rename_i e heq
      split at heq
      · cases heq; rfl
      · split at heq
        · cases heq; rfl
        · rename_i h2
          exfalso
          apply h2
          obtain ⟨kv, h3, h4⟩ := List.mem_map.1 hk
          rw [hv, Bool.not_false, Bool.true_and]
          refine List.any_eq_true.2 ⟨kv, h3, ?_⟩
          rw [h4]
          simpa using fun h => hk' (List.mem_cons_of_mem _ h)
    · rename_i ps' extra heq
      split at heq
      · cases heq
      · split at heq
        · cases heq
        · rename_i h2
          exfalso
          apply h2
          obtain ⟨kv, h3, h4⟩ := List.mem_map.1 hk
          rw [hv, Bool.not_false, Bool.true_and]
          refine List.any_eq_true.2 ⟨kv, h3, ?_⟩
          rw [h4]
          simpa using fun h => hk' (List.mem_cons_of_mem _ h)
  · intro hv h1 h2
    have hm : ∃ vals : List V, vals.length = ps.length ∧ (∀ (i : Nat) v q, ps[i]? = some q → vals[i]? = some v → get kw q = some v) ∧
        ps.mapM (param f.defaults kw) = some (ps.zip vals) := by
      clear hp hk'
      induction ps with
      | nil => exact ⟨[], rfl, by simp, rfl⟩
      | cons q qs ih =>
        obtain ⟨vals, e1, e2, e3⟩ := ih (fun q' hq' => h2 q' (List.mem_cons_of_mem _ hq'))
        have hq := h2 q List.mem_cons_self
        rw [← get_isSome] at hq
        obtain ⟨v, hv'⟩ := Option.isSome_iff_exists.1 hq
        refine ⟨v :: vals, by simp [e1], ?_, ?_⟩
        · intro i w q' hi hw
          cases i with
          | zero => cases hi; cases hw; exact hv'
          | succ i => exact e2 i w q' hi hw
        · rw [List.mapM_cons, e3]
          unfold param
          rw [hv']
          rfl
    obtain ⟨vals, e1, e2, e3⟩ := hm
    refine ⟨vals, e1, e2, ?_⟩
    have hb : bind f arg kw = .ok ((p, arg) :: ps.zip vals, kw.filter fun kv => kv.1 ∉ ps) := by
      unfold bind
      rw [hp]
      simp only []
      have c1 : ¬ ((kw.any fun kv => kv.1 = p) = true) := by rw [any_key]; exact h1
      have c2 : ¬ ((!f.code.varkw && kw.any fun kv => kv.1 ∉ ps) = true) := by rw [hv]; simp
      rw [if_neg c1, if_neg c2, e3]
    unfold call
    rw [hb]

example := C184_surplus (⟨⟨[], ["d", "factor"], true, [], fun _ ps extra => .ok (ps ++ extra)⟩, [], fun _ => none⟩ : Func Nat (Dict Nat)) "d" ["factor"] rfl 5 [("x", 1), ("factor", 2)] "x" (by decide) (by decide)

/-- `x(d, factor, **rest)` with a surplus keyword, and the same without `**rest`. -/
example : call (⟨⟨[], ["d", "factor"], true, [], fun _ ps extra => .ok (ps ++ extra)⟩, [], fun _ => none⟩ : Func Nat (Dict Nat)) 5 [("x", 1), ("factor", 2)] =
      .ok [("d", 5), ("factor", 2), ("x", 1)] ∧
    call (⟨⟨[], ["d", "factor"], false, [], fun _ ps extra => .ok (ps ++ extra)⟩, [], fun _ => none⟩ : Func Nat (Dict Nat)) 5 [("x", 1), ("factor", 2)] = .error .typeError := by
  decide +kernel

/-- **C184, precedence**: the operation's own arguments win over those of the call, and all others of the call are kept. -/
theorem C184_precedence {V : Type} (own kw : Dict V) (hown : (own.map (·.1)).Nodup) (k : String) :
    (∀ v, get own k = some v → get (update kw own) k = some v) ∧ (k ∉ own.map (·.1) → get (update kw own) k = get kw k) := by
  rw [get_update own hown]
  constructor
  · intro v h; rw [h]; rfl
  · intro h; rw [(get_none own k).2 h]; rfl

example := C184_precedence [("factor", 3)] [("factor", 4), ("other", 6)] (by decide) "factor"

/-- A function `x(d, factor=None, other=None)` that gives its arguments back. -/
def sample : Func Nat (Dict Nat) := ⟨⟨[1, 2], ["d", "factor", "other"], false, [], fun _ ps _ => .ok ps⟩, [("factor", 0), ("other", 0)], fun _ => none⟩

example : (Op.ofFunc sample [("factor", 3)]).call (fun _ => some 9) 5 [("factor", 4), ("other", 6)] = .ok [("d", 5), ("factor", 3), ("other", 6)] ∧
    call sample 5 [] = .ok [("d", 5), ("factor", 0), ("other", 0)] := by decide +kernel

/-- **C185, refuted (default values)**: a parameter that neither the operation nor the call gives is a TypeError, whatever its default value. -/
theorem C185_defaults_refuted {V R : Type} (here : String → Option V) (f : Func V R) (own kw : Dict V) (arg : V) (hown : (own.map (·.1)).Nodup) (q : String)
    (hq : q ∈ f.code.params.tail) (h1 : q ∉ own.map (·.1)) (h2 : q ∉ kw.map (·.1)) :
    (Op.ofFunc f own).call here arg kw = .error .typeError := by
  unfold Op.call Op.ofFunc
  simp only []
  split
  · rfl
  · have hb : bind ⟨f.code, [], here⟩ arg (update kw own) = .error .typeError := by
      unfold bind
      cases hp : f.code.params with
      | nil => rfl
      | cons p ps =>
        simp only []
        split
        · rfl
        · split
          · rfl
          · have : ps.mapM (param [] (update kw own)) = none := by
              rw [hp, List.tail_cons] at hq
              rename_i hx1 hx2
              clear hp hx2
              induction ps with
              | nil => simp at hq
              | cons q' qs ih =>
                rw [List.mapM_cons]
                rcases List.mem_cons.1 hq with h | h
                · subst h
                  have : param [] (update kw own) q = none := by
                    unfold param
                    rw [get_update own hown, (get_none own q).2 h1, (get_none kw q).2 h2]
                    rfl
                  rw [this]
                  rfl
                · rw [ih h]
                  cases param [] (update kw own) q' <;> rfl
            rw [this]
    unfold call
    rw [hb]

/-- **C185, refuted (enclosing functions)**: an operation of a function that uses a name of an enclosing function never works. -/
theorem C185_closure_refuted {V R : Type} (here : String → Option V) (f : Func V R) (own kw : Dict V) (arg : V) (hf : f.code.freevars ≠ []) :
    (Op.ofFunc f own).call here arg kw = .error .typeError := by
  unfold Op.call Op.ofFunc
  simp only []
  rw [if_pos hf]

/-- **C185, refuted (names)**: a function that uses a name of its own module works, but its operation does not, unless the library's module happens to have the
name. -/
theorem C185_module_refuted {V : Type} (here : String → Option V) (name : String) (hn : here name = none) (v arg : V) :
    ∃ f : Func V V, call f arg [] = .ok v ∧ (Op.ofFunc f []).call here arg [] = .error .nameError := by
  refine ⟨⟨⟨[], ["d"], false, [], fun g _ _ => match g name with
    | some x => .ok x
    | none => .error .nameError⟩, [], fun k => if k = name then some v else none⟩, ?_, ?_⟩
  · simp [call, bind]
  · simp [Op.call, Op.ofFunc, call, bind, update, hn]

example : call sample 5 [] ≠ .error .typeError ∧ (Op.ofFunc sample []).call (fun _ => none) 5 [] = .error .typeError := by
  refine ⟨by decide +kernel, C185_defaults_refuted _ _ _ _ _ (by simp) "other" (by simp [sample]) (by simp) (by simp)⟩

/-- **C186, refuted**: the inverse of a preprocessor without a backward function is a TypeError, never a NotImplementedError. -/
theorem C186_base_refuted {V R : Type} (here : String → Option V) (arg : V) (inv : Dict V) :
    (baseInverse (none : Option (Func V R))).call here arg inv = .error .typeError := by
  rfl

/-! ## C187-C191: versions -/

/-- **C187, same function and parameters**: if the two texts do not collide, operations with code of the same size and the same number of parameters of the same sizes have the
same version exactly if code and parameters are the same. -/
theorem C187_version {V R : Type} (H : List Nat → List Char) (kind : V → Kind) (op op' : Op V R) (ps ps' : List (List Nat))
    (h : op.kwargs.map (fun kv => kind kv.2) = ps.map fun b => .numbers b true) (h' : op'.kwargs.map (fun kv => kind kv.2) = ps'.map fun b => .numbers b true)
    (hlen : op.code.bytes.length = op'.code.bytes.length) (hlens : ps.map List.length = ps'.map List.length)
    (hH : H (op.code.bytes ++ ps.flatten) = H (op'.code.bytes ++ ps'.flatten) → op.code.bytes ++ ps.flatten = op'.code.bytes ++ ps'.flatten) :
    ∃ v v', opVersion H kind op = .ok v ∧ opVersion H kind op' = .ok v' ∧ (v = v' ↔ op.code.bytes = op'.code.bytes ∧ ps = ps') := by
  have hall : ∀ ps : List (List Nat), hashedAll (ps.map fun b => Kind.numbers b true) = .ok ps.flatten := by
    intro ps
    induction ps with
    | nil => rfl
    | cons b bs ih => rw [List.map_cons, hashedAll, ih]; rfl
  refine ⟨H (op.code.bytes ++ ps.flatten), H (op'.code.bytes ++ ps'.flatten), by unfold opVersion; rw [h, hall], by unfold opVersion; rw [h', hall], ?_⟩
  constructor
  · intro e
    obtain ⟨e1, e2⟩ := List.append_inj (hH e) hlen
    refine ⟨e1, ?_⟩
    clear h h' hH e hlen e1
    induction ps generalizing ps' with
    | nil => cases ps' with
      | nil => rfl
      | cons _ _ => simp at hlens
    | cons b bs ih => cases ps' with
      | nil => simp at hlens
      | cons b' bs' =>
        simp only [List.map_cons, List.cons.injEq] at hlens
        rw [List.flatten_cons, List.flatten_cons] at e2
        obtain ⟨e3, e4⟩ := List.append_inj e2 hlens.1
        rw [e3, ih bs' hlens.2 e4]
  · rintro ⟨e1, e2⟩
    rw [e1, e2]

/-- Two operations with one parameter each. -/
example : ∃ v v', opVersion (fun b => b.map Char.ofNat) (fun n : Nat => .numbers [n] true) (⟨sample.code, [("factor", 65)]⟩ : Op Nat (Dict Nat)) = .ok v ∧
    opVersion (fun b => b.map Char.ofNat) (fun n : Nat => .numbers [n] true) (⟨sample.code, [("factor", 66)]⟩ : Op Nat (Dict Nat)) = .ok v' ∧ v ≠ v' := by
  refine ⟨_, _, rfl, rfl, by decide +kernel⟩

/-- **C188, refuted**: the version does not depend on the names of parameters, nor on where one ends and the next begins: operations of the same code whose parameters' bytes
are the same when written one after the other have the same version, whatever the digest. -/
theorem C188_collision_refuted {V R : Type} (H : List Nat → List Char) (kind : V → Kind) (op op' : Op V R) (ps ps' : List (List Nat))
    (h : op.kwargs.map (fun kv => kind kv.2) = ps.map fun b => .numbers b true) (h' : op'.kwargs.map (fun kv => kind kv.2) = ps'.map fun b => .numbers b true)
    (hc : op.code.bytes = op'.code.bytes) (hp : ps.flatten = ps'.flatten) : ∃ v, opVersion H kind op = .ok v ∧ opVersion H kind op' = .ok v := by
  have hall : ∀ ps : List (List Nat), hashedAll (ps.map fun b => Kind.numbers b true) = .ok ps.flatten := by
    intro ps
    induction ps with
    | nil => rfl
    | cons b bs ih => rw [List.map_cons, hashedAll, ih]; rfl
  refine ⟨H (op.code.bytes ++ ps.flatten), by unfold opVersion; rw [h, hall], by unfold opVersion; rw [h', hall, ← hc, hp]⟩

/-- Mean and standard deviation swapped sizes; and the same numbers under other names. -/
example (H : List Nat → List Char) (c : Code (List Nat) Nat) :
    (∃ v, opVersion H (fun b => .numbers b true) (⟨c, [("mean", [1, 2]), ("std", [3])]⟩ : Op (List Nat) Nat) = .ok v ∧
      opVersion H (fun b => .numbers b true) (⟨c, [("std", [1]), ("mean", [2, 3])]⟩ : Op (List Nat) Nat) = .ok v) :=
  C188_collision_refuted H _ _ _ [[1, 2], [3]] [[1], [2, 3]] rfl rfl rfl rfl

/-- **C189, refuted**: a parameter that is no number or array, like a slice, a function or a network, enters with its address: equal objects at different addresses give
different versions, if the two texts do not collide. -/
theorem C189_address_refuted {V R : Type} (H : List Nat → List Char) (c : Code V R) (name : String) (kind kind' : V → Kind) (v : V)
    (a a' : List Nat) (hH : H (c.bytes ++ a) = H (c.bytes ++ a') → c.bytes ++ a = c.bytes ++ a') (h : kind v = .object a) (h' : kind' v = .object a') (hne : a ≠ a') :
    ∃ w w', opVersion H kind (⟨c, [(name, v)]⟩ : Op V R) = .ok w ∧ opVersion H kind' (⟨c, [(name, v)]⟩ : Op V R) = .ok w' ∧ w ≠ w' := by
  refine ⟨H (c.bytes ++ a), H (c.bytes ++ a'), ?_, ?_, ?_⟩
  · simp [opVersion, hashedAll, h, Kind.hashed]
  · simp [opVersion, hashedAll, h', Kind.hashed]
  · intro e
    have := hH e
    exact hne (List.append_cancel_left this)

/-- **C190, refuted**: an operation cannot have a parameter with a version of its own, like another operation or a pipeline: TypeError, whatever the other parameters, if
numpy accepts those before it. -/
theorem C190_nested_refuted {V R : Type} (H : List Nat → List Char) (kind : V → Kind) (c : Code V R) (before after : Dict V) (name : String) (v : V) (w : String)
    (h : kind v = .versioned w) (hb : ∀ kv ∈ before, ∃ b, (kind kv.2).hashed = .ok b) :
    opVersion H kind (⟨c, before ++ (name, v) :: after⟩ : Op V R) = .error .typeError := by
  have : hashedAll ((before ++ (name, v) :: after).map fun kv => kind kv.2) = .error .typeError := by
    induction before with
    | nil => simp [hashedAll, h, Kind.hashed]
    | cons kv bs ih =>
      obtain ⟨b, hb'⟩ := hb kv (by simp)
      rw [List.cons_append, List.map_cons, hashedAll, hb', ih (fun kv hkv => hb kv (by simp [hkv]))]
  unfold opVersion
  rw [this]

theorem flatten_inj32 : ∀ (l l' : List (List Char)), (∀ v ∈ l, v.length = 32) → (∀ v ∈ l', v.length = 32) → l.flatten = l'.flatten → l = l'
  | [], [], _, _, _ => rfl
  | [], v :: vs, _, h, e => by
    have := congrArg List.length e
    rw [List.flatten_cons, List.length_append, h v (by simp)] at this
    simp at this
    omega
  | v :: vs, [], h, _, e => by
    have := congrArg List.length e
    rw [List.flatten_cons, List.length_append, h v (by simp)] at this
    simp at this
  | v :: vs, v' :: vs', h, h', e => by
    rw [List.flatten_cons, List.flatten_cons] at e
    obtain ⟨e1, e2⟩ := List.append_inj e (by rw [h v (by simp), h' v' (by simp)])
    rw [e1, flatten_inj32 vs vs' (fun w hw => h w (by simp [hw])) (fun w hw => h' w (by simp [hw])) e2]

/-- **C191, pipelines' versions**: pipelines have the same version exactly if they have the same operations' versions (digests of 32 characters) in the same order, if the
two texts do not collide; a learned feature has the version it was given, and otherwise that of its pipeline. -/
theorem C191_pipeline (H : List Nat → List Char) (l l' : List (List Char)) (h : ∀ v ∈ l, v.length = 32) (h' : ∀ v ∈ l', v.length = 32)
    (hH : H (l.flatten.map Char.toNat) = H (l'.flatten.map Char.toNat) → l.flatten = l'.flatten) :
    (pipelineVersion H l = pipelineVersion H l' ↔ l = l') ∧ (∀ v, learnedVersion (some v) (pipelineVersion H l) = v) ∧
      learnedVersion none (pipelineVersion H l) = pipelineVersion H l :=
  ⟨⟨fun e => flatten_inj32 l l' h h' (hH e), fun e => by rw [e]⟩, fun _ => rfl, rfl⟩

/-- Two versions in both orders, with a digest without collisions. -/
example : pipelineVersion (fun b => b.map Char.ofNat) [List.replicate 32 'a', List.replicate 32 'b'] ≠
    pipelineVersion (fun b => b.map Char.ofNat) [List.replicate 32 'b', List.replicate 32 'a'] := by decide +kernel

/-! ## C192, C193: parts of pipelines -/

theorem at_length {P : Type} (ps : List P) (is : List Nat) (h : ∀ i ∈ is, i < ps.length) :
    (at' ps is).length = is.length ∧ ∀ j (hj : j < is.length), (at' ps is)[j]? = ps[is[j]]? := by
  induction is with
  | nil => simp [at']
  | cons i is ih =>
    have hi := h i (by simp)
    obtain ⟨ih1, ih2⟩ := ih (fun i hi => h i (by simp [hi]))
    have e : at' ps (i :: is) = ps[i] :: at' ps is := by
      unfold at'
      rw [List.filterMap_cons, List.getElem?_eq_getElem hi]
    rw [e]
    refine ⟨by simp [ih1], ?_⟩
    intro j hj
    cases j with
    | zero => simp [hi]
    | succ j => simpa using ih2 j (by simpa using hj)

/-- The element at a position that may count from the end. -/
def elem? {P : Type} (ps : List P) (i : Int) : Option P := if 0 ≤ i then ps[i.toNat]? else if 0 ≤ i + ps.length then ps[(i + ps.length).toNat]? else none

theorem normIndex_spec {P : Type} (ps : List P) (i : Int) :
    (∃ k p, Arr.normIndex ps.length i = .ok k ∧ ps[k]? = some p ∧ elem? ps i = some p) ∨ (Arr.normIndex ps.length i = .error .indexError ∧ elem? ps i = none) := by
  unfold Arr.normIndex elem?
  by_cases h : i < -(ps.length : Int) ∨ (ps.length : Int) ≤ i
  · right
    refine ⟨by rw [if_pos h], ?_⟩
    rcases h with h | h
    · rw [if_neg (by omega), if_neg (by omega)]
    · rw [if_pos (by omega)]
      apply List.getElem?_eq_none
      omega
  · left
    rw [if_neg h]
    by_cases h0 : i < 0
    · have hk : (i + ps.length).toNat < ps.length := by omega
      refine ⟨_, ps[(i + ps.length).toNat], rfl, ?_, ?_⟩
      · rw [if_pos h0, List.getElem?_eq_getElem hk]
      · rw [if_neg (by omega), if_pos (by omega), List.getElem?_eq_getElem hk]
    · have hk : i.toNat < ps.length := by omega
      refine ⟨_, ps[i.toNat], rfl, ?_, ?_⟩
      · rw [if_neg h0, List.getElem?_eq_getElem hk]
      · rw [if_pos (by omega), List.getElem?_eq_getElem hk]

/-- **C192, one**: an integer gives the step at this position, counted from the end if negative, and an IndexError if there is none. -/
theorem C192_int {P : Type} (ps : List P) (i : Int) :
    getItem ps (.int i) = match elem? ps i with | some p => .ok (.processor p) | none => .error .indexError := by
  unfold getItem
  rcases normIndex_spec ps i with ⟨k, p, h1, h2, h3⟩ | ⟨h1, h2⟩
  · simp only [h1, h2, h3]
  · simp only [h1, h2]

/-- **C192, lists**: a list of integers gives a pipeline of the steps at these positions, in this order, and an IndexError if one does not exist. -/
theorem C192_list {P : Type} (ps : List P) (is : List Int) :
    getItem ps (.list is) = match is.mapM (elem? ps) with | some qs => .ok (.pipeline qs) | none => .error .indexError := by
  have key : match is.mapM (elem? ps) with
      | some qs => ∃ ks, Arr.normList ps.length is = .ok ks ∧ at' ps ks = qs
      | none => Arr.normList ps.length is = .error .indexError := by
    induction is with
    | nil => exact ⟨[], rfl, rfl⟩
    | cons i is ih =>
      rw [List.mapM_cons]
      rcases normIndex_spec ps i with ⟨k, p, h1, h2, h3⟩ | ⟨h1, h2⟩
      · rw [h3]
        cases hm : is.mapM (elem? ps) with
        | none =>
          rw [hm] at ih
          simp only at ih
          show Arr.normList ps.length (i :: is) = _
          simp only [Arr.normList, h1, ih]
        | some qs =>
          rw [hm] at ih
          obtain ⟨ks, e1, e2⟩ := ih
          refine ⟨k :: ks, by simp only [Arr.normList, h1, e1], ?_⟩
          rw [← e2]
          simp [at', h2]
      · rw [h2]
        show Arr.normList ps.length (i :: is) = _
        simp only [Arr.normList, h1]
  unfold getItem
  cases hm : is.mapM (elem? ps) with
  | none => rw [hm] at key; simp only at key; simp only [key]
  | some qs =>
    rw [hm] at key
    obtain ⟨ks, e1, e2⟩ := key
    simp only [e1, e2]

theorem at_run {P : Type} (ps : List P) (a n : Nat) (h : a + n ≤ ps.length) :
    at' ps ((List.range n).map fun j => a + j) = (ps.drop a).take n := by
  have hlt : ∀ i ∈ (List.range n).map (fun j => a + j), i < ps.length := by
    intro i hi
    obtain ⟨j, hj, rfl⟩ := List.mem_map.1 hi
    have := List.mem_range.1 hj
    omega
  obtain ⟨h1, h2⟩ := at_length ps _ hlt
  apply List.ext_getElem?
  intro j
  by_cases hj : j < n
  · rw [h2 j (by simpa using hj)]
    simp only [List.getElem_map, List.getElem_range]
    rw [List.getElem?_take_of_lt hj, List.getElem?_drop]
  · rw [List.getElem?_eq_none (by rw [h1]; simpa using hj), List.getElem?_eq_none (by simp; omega)]

/-- **C192, slices**: `pipeline[a:b]` is the pipeline of the steps from `a` to `b`, with Python's meaning of bounds that are missing, negative or too large. -/
theorem C192_slice {P : Type} (ps : List P) (a b : Option Int) :
    getItem ps (.slice a b none) = .ok (.pipeline (pySlice ps (a.getD 0) (b.getD ps.length))) := by
  unfold getItem
  have hb : ∀ i : Int, pyBound ps.length i ≤ ps.length ∨ 0 ≤ i + ps.length := by intro i; unfold pyBound; split <;> omega
  have hle : ∀ i : Int, i < 0 → pyBound ps.length i ≤ ps.length := by intro i hi; unfold pyBound; rw [if_pos hi]; omega
  have hle' : ∀ i : Int, pyBound ps.length i ≤ ps.length := by
    intro i
    by_cases hi : i < 0
    · exact hle i hi
    · unfold pyBound; rw [if_neg hi]; omega
  have hA : Arr.upFrom ps.length a = pyBound ps.length (a.getD 0) := by
    cases a with
    | none => simp [Arr.upFrom, pyBound]
    | some a => simp [Arr.upFrom]
  have hB : Arr.upTo ps.length b = pyBound ps.length (b.getD ps.length) := by
    cases b with
    | none => simp [Arr.upTo, pyBound]
    | some b => simp [Arr.upTo]
  unfold Arr.sliceRange
  simp only [Option.getD_none, hA, hB, show ¬ ((1 : Int) = 0) by decide, show (0 : Int) < 1 by decide, if_false, if_true]
  congr 2
  generalize hx : pyBound ps.length (a.getD 0) = x
  generalize hy : pyBound ps.length (b.getD ps.length) = y
  have hyl : y ≤ ps.length := hy ▸ hle' _
  have hxl : x ≤ ps.length := hx ▸ hle' _
  have hn : (((y : Int) - x + 1 - 1) / 1).toNat = y - x := by omega
  rw [hn]
  have hf : (List.range (y - x)).map (fun (j : Nat) => ((x : Int) + (j : Int) * 1).toNat) = (List.range (y - x)).map fun j => x + j := by
    apply List.map_congr_left
    intro j _
    omega
  rw [hf]
  unfold pySlice
  rw [hx, hy]
  by_cases hxy : x ≤ y
  · rw [at_run ps x (y - x) (by omega), List.drop_take]
  · rw [show y - x = 0 by omega, List.drop_eq_nil_of_le (by rw [List.length_take]; omega)]
    rfl

/-- **C192, parts compose**: transforming with the first part of a pipeline and then with the rest gives the data that the whole pipeline gives, and undoing first the rest and then the
first part does what undoing the whole does. -/
theorem C192_compose {D I : Type} (ps qs : List (Pipeline.Proc D I)) (d : D) (r1 r2 : Pipeline.Result D I) (h1 : Pipeline.transform ps d = .ok r1)
    (h2 : Pipeline.transform qs r1.data = .ok r2) :
    ∃ r, Pipeline.transform (ps ++ qs) d = .ok r ∧ r.data = r2.data ∧
      r.inverseTransform = match r2.inverseTransform with
        | .error e => .error e
        | .ok m => Pipeline.Result.inverseTransform { r1 with data := m } := by
  have split : ∀ (ps : List (Pipeline.Proc D I)) (d : D) (o : D) (is : List I) (o' : D) (is' : List I), Pipeline.forwardAll ps d = .ok (o, is) →
      Pipeline.forwardAll qs o = .ok (o', is') → Pipeline.forwardAll (ps ++ qs) d = .ok (o', is ++ is') ∧ is.length = ps.length := by
    intro ps
    induction ps with
    | nil =>
      intro d o is o' is' h h'
      simp only [Pipeline.forwardAll, Except.ok.injEq, Prod.mk.injEq] at h
      obtain ⟨rfl, rfl⟩ := h
      exact ⟨h', rfl⟩
    | cons p ps ih =>
      intro d o is o' is' h h'
      simp only [Pipeline.forwardAll] at h
      cases hs : p.step d with
      | error e => rw [hs] at h; simp at h
      | ok oi =>
        obtain ⟨out, inv⟩ := oi
        rw [hs] at h
        simp only at h
        cases hf : Pipeline.forwardAll ps out with
        | error e => rw [hf] at h; simp at h
        | ok fi =>
          obtain ⟨fin, invs⟩ := fi
          rw [hf] at h
          simp only [Except.ok.injEq, Prod.mk.injEq] at h
          obtain ⟨rfl, rfl⟩ := h
          obtain ⟨e1, e2⟩ := ih out fin invs o' is' hf h'
          refine ⟨?_, by simp [e2]⟩
          rw [List.cons_append]
          simp only [Pipeline.forwardAll, hs, e1]
          rfl
  have back : ∀ (a b : List (I × Pipeline.Proc D I)) (d : D), Pipeline.backAll (a ++ b) d = match Pipeline.backAll a d with
      | .error e => .error e
      | .ok m => Pipeline.backAll b m := by
    intro a
    induction a with
    | nil => intro b d; rfl
    | cons ip a ih =>
      intro b d
      obtain ⟨inv, p⟩ := ip
      rw [List.cons_append]
      simp only [Pipeline.backAll]
      cases p.inverse d inv with
      | error e => rfl
      | ok d' => exact ih b d'
  unfold Pipeline.transform at h1 h2
  cases hf1 : Pipeline.forwardAll ps d with
  | error e => rw [hf1] at h1; simp at h1
  | ok oi =>
    obtain ⟨o, is⟩ := oi
    rw [hf1] at h1
    simp only [Except.ok.injEq] at h1
    subst h1
    cases hf2 : Pipeline.forwardAll qs o with
    | error e => simp only [hf2] at h2; simp at h2
    | ok oi' =>
      obtain ⟨o', is'⟩ := oi'
      simp only [hf2, Except.ok.injEq] at h2
      subst h2
      obtain ⟨e1, e2⟩ := split ps d o is o' is' hf1 hf2
      have hlen : is'.length = qs.length := by
        have := split ps d o is o' is' hf1 hf2
        have gen : ∀ (qs : List (Pipeline.Proc D I)) (o o' : D) (is' : List I), Pipeline.forwardAll qs o = .ok (o', is') → is'.length = qs.length := by
          intro qs
          induction qs with
          | nil => intro o o' is' h; simp only [Pipeline.forwardAll, Except.ok.injEq, Prod.mk.injEq] at h; obtain ⟨_, rfl⟩ := h; rfl
          | cons p qs ih =>
            intro o o' is' h
            simp only [Pipeline.forwardAll] at h
            cases hs : p.step o with
            | error e => rw [hs] at h; simp at h
            | ok oi =>
              obtain ⟨out, inv⟩ := oi
              rw [hs] at h
              simp only at h
              cases hf : Pipeline.forwardAll qs out with
              | error e => rw [hf] at h; simp at h
              | ok fi =>
                obtain ⟨fin, invs⟩ := fi
                rw [hf] at h
                simp only [Except.ok.injEq, Prod.mk.injEq] at h
                obtain ⟨rfl, rfl⟩ := h
                simp [ih out fin invs hf]
        exact gen qs o o' is' hf2
      refine ⟨⟨o', (ps ++ qs).reverse, (is ++ is').reverse⟩, by unfold Pipeline.transform; rw [e1], rfl, ?_⟩
      unfold Pipeline.Result.inverseTransform
      simp only [List.reverse_append]
      rw [List.zip_append (by simp [hlen]), back]

/-- **C193, refuted**: a numpy integer is no position of a pipeline: an error, TypeError if the position exists. -/
theorem C193_numpy_refuted {P : Type} (ps : List P) (i : Int) :
    getItem ps (.numpyInt i) = if (elem? ps i).isSome then .error .typeError else .error .indexError := by
  unfold getItem
  rcases normIndex_spec ps i with ⟨k, p, h1, h2, h3⟩ | ⟨h1, h2⟩
  · simp only [h1, h3]; rfl
  · simp only [h1, h2]; rfl

example : getItem [10, 20, 30] (.int (-1)) = .ok (.processor 30) ∧ getItem [10, 20, 30] (.slice none (some (-1)) none) = .ok (.pipeline [10, 20]) ∧
    getItem [10, 20, 30] (.list [2, 0]) = .ok (.pipeline [30, 10]) ∧ getItem [10, 20, 30] (.slice none none (some (-1))) = .ok (.pipeline [30, 20, 10]) ∧
    getItem [10, 20, 30] (.numpyInt 1) = .error .typeError := by decide +kernel

example := C184_call (fun _ => some 9) sample [("factor", 3)] [("other", 6)] 5 (by decide) rfl (fun _ _ => rfl) (by decide)
example := C187_version (fun b => b.map Char.ofNat) (fun n : Nat => .numbers [n] true) (⟨sample.code, [("factor", 65)]⟩ : Op Nat (Dict Nat)) (⟨sample.code, [("factor", 66)]⟩ : Op Nat (Dict Nat)) [[65]] [[66]] rfl rfl rfl rfl
  (fun h => absurd h (by decide +kernel))
example := C191_pipeline (fun b => b.map Char.ofNat) [List.replicate 32 'a', List.replicate 32 'b'] [List.replicate 32 'b', List.replicate 32 'a'] (by decide) (by decide) (fun h => absurd h (by decide +kernel))

end Zounds.Ops
