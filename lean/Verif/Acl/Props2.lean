import Verif.Acl.Props

/-! # Defaults of parameters in `from_data` (C459) -/

namespace Verif.Acl

theorem mapM_some_iff {A B : Type} (f : A → Option B) : ∀ (l : List A) (r : List B), l.mapM f = some r ↔ l.map f = r.map some
  | [], r => by cases r <;> simp
  | a :: l, r => by
    rw [List.mapM_cons]
    cases hf : f a with
    | none => cases r <;> simp [hf]
    | some b =>
      cases hl : l.mapM f with
      | none =>
        have : ∀ r' : List B, l.map f ≠ r'.map some := fun r' h => by rw [(mapM_some_iff f l r').2 h] at hl; cases hl
        cases r with
        | nil => simp
        | cons c r => simp [hf, this r]
      | some s =>
        have hs := (mapM_some_iff f l s).1 hl
        cases r with
        | nil => simp
        | cons c r =>
          have inj : s.map some = r.map some ↔ s = r := (List.map_injective_iff.2 (Option.some_injective B)).eq_iff
          simp [hf, hs, inj]

/-- **C459, defaults.** For a class that inherits its `create`, or whose own one takes `**kwargs`, the call succeeds exactly when every key is allowed and every
parameter without a default has its key; a parameter then gets the value of its key, or its default when the key is missing; the other keys are passed on.
Missing: the other classes, refuted in `C459_default_refuted`. -/
theorem C459_defaults_partial {V : Type} (pyNone : V) (c : Create V) (own : Bool) (m : Mro V) (ho : own = true → c.varkw = true) (data : List (String × V))
    (vs : List V) (extra : List (String × V)) :
    fromData pyNone (if own then some c :: m else none :: some c :: m) data = some (vs, extra) ↔
      (c.varkw = false → ∀ k ∈ data, k.1 ∈ c.params.map Prod.fst) ∧ c.params.map (fun p => (data.lookup p.1).or p.2) = vs.map some ∧
        extra = data.filter fun k => decide (k.1 ∉ c.params.map Prod.fst) := by
  have hfrom : fromData pyNone (if own then some c :: m else none :: some c :: m) data = call c data := by
    cases own with
    | true => simp [fromData, resolve, accept, ho rfl]
    | false => simp [fromData, resolve, accept]
  have harg : argOf data = fun p : String × Option V => (data.lookup p.1).or p.2 := by
    funext p
    unfold argOf
    cases data.lookup p.1 <;> rfl
  rw [hfrom, call, harg]
  have hc : (!c.varkw && data.any fun k => decide (k.1 ∉ c.params.map Prod.fst)) = true ↔ ¬ (c.varkw = false → ∀ k ∈ data, k.1 ∈ c.params.map Prod.fst) := by
    rw [Bool.and_eq_true, List.any_eq_true]
    cases c.varkw <;> simp
  by_cases h : (c.varkw = false → ∀ k ∈ data, k.1 ∈ c.params.map Prod.fst)
  · rw [if_neg fun h' => hc.1 h' h, ← mapM_some_iff, Option.map_eq_some_iff]
    constructor
    · rintro ⟨a, ha, he⟩
      cases he
      exact ⟨h, ha, rfl⟩
    · rintro ⟨_, ha, rfl⟩
      exact ⟨vs, ha, rfl⟩
  · rw [if_pos (hc.2 h)]
    constructor
    · intro h'; cases h'
    · rintro ⟨h', _⟩; exact absurd h' h

/-- A case: an inherited `create(x, y=7)` and one with `**kwargs`. -/
example : fromData 99 [none, some ⟨[("x", none), ("y", some 7)], false⟩] [("x", 5)] = some ([5, 7], []) ∧
    fromData 99 [some ⟨[("x", none), ("y", some 7)], true⟩] [("x", 5), ("z", 1)] = some ([5, 7], [("z", 1)]) ∧
    fromData 99 [some ⟨[("x", none), ("y", some 7)], true⟩] [("z", 1)] = none := by decide

end Verif.Acl
