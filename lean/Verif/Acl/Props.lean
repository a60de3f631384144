import Verif.Acl.Model
import Mathlib.Tactic.Ring
import Mathlib.Tactic.Linarith
import Mathlib.Tactic.NormNum
import Mathlib.Tactic.FieldSimp
import Mathlib.Algebra.Order.Ring.Abs
import Mathlib.Algebra.Order.BigOperators.Group.Finset
import Mathlib.Algebra.BigOperators.Group.Finset.Basic
import Mathlib.Algebra.BigOperators.Intervals

set_option linter.unusedSectionVars false

/-! # Base classes of the API and the matrix of the bounded method (C457–C460) -/

namespace Verif.Acl

/-! ## C457 -/

/-- What the dictionary of classes keeps true. -/
structure RegInv (cname : String) (reg : List Made) : Prop where
  key : ∀ m ∈ reg, m.name = cname ++ ("[" ++ (m.item.name ++ "]"))
  uniq : reg.Pairwise fun a b => a.name ≠ b.name
  uid : reg.Pairwise fun a b => a.uid ≠ b.uid
  lt : ∀ m ∈ reg, m.uid < reg.length

theorem get_cases (reg : List Made) (cname : String) (item : Item) :
    ((classGetItem reg cname item).1 = reg ∧ (classGetItem reg cname item).2 ∈ reg ∧
        (classGetItem reg cname item).2.name = cname ++ ("[" ++ (item.name ++ "]"))) ∨
      ((∀ m ∈ reg, m.name ≠ cname ++ ("[" ++ (item.name ++ "]"))) ∧
        classGetItem reg cname item = (reg ++ [⟨cname ++ ("[" ++ (item.name ++ "]")), reg.length, item⟩],
          ⟨cname ++ ("[" ++ (item.name ++ "]")), reg.length, item⟩)) := by
  unfold classGetItem
  dsimp only
  cases h : reg.find? fun m => decide (m.name = cname ++ ("[" ++ (item.name ++ "]"))) with
  | some m => exact Or.inl ⟨rfl, List.mem_of_find?_eq_some h, by simpa using List.find?_some h⟩
  | none => exact Or.inr ⟨fun m hm => by simpa using List.find?_eq_none.1 h m hm, rfl⟩

theorem get_inv {cname : String} {reg : List Made} (I : RegInv cname reg) (item : Item) : RegInv cname (classGetItem reg cname item).1 := by
  rcases get_cases reg cname item with ⟨h, _⟩ | ⟨hn, h⟩
  · rw [h]; exact I
  rw [h]
  refine ⟨fun m hm => ?_, ?_, ?_, fun m hm => ?_⟩
  · rcases List.mem_append.1 hm with hm | hm
    · exact I.key m hm
    · rw [List.mem_singleton.1 hm]
  · refine List.pairwise_append.2 ⟨I.uniq, List.pairwise_singleton _ _, fun a ha b hb => ?_⟩
    rw [List.mem_singleton.1 hb]; exact hn a ha
  · refine List.pairwise_append.2 ⟨I.uid, List.pairwise_singleton _ _, fun a ha b hb => ?_⟩
    rw [List.mem_singleton.1 hb]; exact (I.lt a ha).ne
  · rw [List.length_append, List.length_singleton]
    rcases List.mem_append.1 hm with hm | hm
    · exact (I.lt m hm).trans (Nat.lt_succ_self _)
    · rw [List.mem_singleton.1 hm]; exact Nat.lt_succ_self _

theorem run_inv (cname : String) : ∀ (l : List Item) (reg : List Made), RegInv cname reg → RegInv cname (runGet cname reg l)
  | [], _, I => I
  | i :: l, _, I => run_inv cname l _ (get_inv I i)

theorem run_items (cname : String) : ∀ (l : List Item) (reg : List Made), ∀ m ∈ runGet cname reg l, m ∈ reg ∨ m.item ∈ l
  | [], _, m, hm => Or.inl hm
  | i :: l, reg, m, hm => by
    rcases run_items cname l _ m hm with h | h
    · rcases get_cases reg cname i with ⟨e, _⟩ | ⟨_, e⟩
      · rw [e] at h; exact Or.inl h
      · rw [e] at h
        rcases List.mem_append.1 h with h | h
        · exact Or.inl h
        · rw [List.mem_singleton.1 h]; exact Or.inr List.mem_cons_self
    · exact Or.inr (List.mem_cons_of_mem _ h)

theorem run_keep (cname : String) : ∀ (l : List Item) (reg : List Made), ∀ m ∈ reg, m ∈ runGet cname reg l
  | [], _, _, hm => hm
  | i :: l, reg, m, hm => by
    refine run_keep cname l _ m ?_
    rcases get_cases reg cname i with ⟨e, _⟩ | ⟨_, e⟩
    · rw [e]; exact hm
    · rw [e]; exact List.mem_append_left _ hm

/-- **C457, item types, partial.** In a program in which different item classes have different names, `ObjectCollection[T]` has the item type `T`. -/
theorem C457_item_partial (cname : String) (used : List Item) (item : Item) (hn : ∀ i ∈ used, i.name = item.name → i = item) :
    (classGetItem (runGet cname [] used) cname item).2.item = item := by
  have I : RegInv cname (runGet cname [] used) := run_inv cname used [] ⟨by simp, by simp, by simp, by simp⟩
  rcases get_cases (runGet cname [] used) cname item with ⟨_, hm, hk⟩ | ⟨_, e⟩
  · have hk' := I.key _ hm
    rw [hk] at hk'
    have e : item.name = (classGetItem (runGet cname [] used) cname item).2.item.name := by
      have := congrArg String.toList hk'
      simp only [String.toList_append, List.append_cancel_left_eq, List.append_cancel_right_eq] at this
      exact String.toList_inj.1 this
    rcases run_items cname used [] _ hm with h | h
    · cases h
    · exact hn _ h e.symm
  · rw [e]

/-- **C457, same class.** The class of an item is made once: after any further use the same class object is returned. -/
theorem C457_same (cname : String) (used later : List Item) (item : Item) :
    let r := classGetItem (runGet cname [] used) cname item
    (classGetItem (runGet cname r.1 later) cname item).2 = r.2 := by
  intro r
  have I : RegInv cname (runGet cname [] used) := run_inv cname used [] ⟨by simp, by simp, by simp, by simp⟩
  have I1 : RegInv cname r.1 := get_inv I item
  have I2 := run_inv cname later r.1 I1
  have hr : r.2 ∈ r.1 ∧ r.2.name = cname ++ ("[" ++ (item.name ++ "]")) := by
    rcases get_cases (runGet cname [] used) cname item with ⟨e, hm, hk⟩ | ⟨_, e⟩
    · show _ ∈ (classGetItem (runGet cname [] used) cname item).1 ∧ _
      rw [e]; exact ⟨hm, hk⟩
    · show (classGetItem (runGet cname [] used) cname item).2 ∈ (classGetItem (runGet cname [] used) cname item).1 ∧
        (classGetItem (runGet cname [] used) cname item).2.name = _
      rw [e]; exact ⟨List.mem_append_right _ List.mem_cons_self, rfl⟩
  have hk := run_keep cname later r.1 r.2 hr.1
  rcases get_cases (runGet cname r.1 later) cname item with ⟨_, hm, hn⟩ | ⟨hne, _⟩
  · by_contra hc
    have key : ∀ (l : List Made), l.Pairwise (fun a b => a.name ≠ b.name) → ∀ a ∈ l, ∀ b ∈ l, a.name = b.name → a = b := by
      intro l hl a ha b hb hab
      by_contra hne
      haveI : Std.Symm (fun a b : Made => a.name ≠ b.name) := ⟨fun _ _ h => Ne.symm h⟩
      exact (hl.forall ha hb hne) hab
    exact hc (key _ I2.uniq _ hm _ hk (hn.trans hr.2.symm))
  · exact absurd hr.2 (hne _ hk)

/-- **C457, refuted.** Once a class of the same name has been used, `ObjectCollection[T]` is the collection of that other class, for every `T`. -/
theorem C457_item_refuted (cname : String) (first item : Item) (later : List Item) (hn : first.name = item.name) (hd : first ≠ item) :
    (classGetItem (runGet cname [] (first :: later)) cname item).2.item ≠ item := by
  have h1 := C457_same cname [] later first
  have e : ∀ reg, (classGetItem reg cname item).2.name = (classGetItem reg cname first).2.name := by
    intro reg
    rcases get_cases reg cname item with ⟨_, _, h⟩ | ⟨_, h⟩ <;> rcases get_cases reg cname first with ⟨_, _, h'⟩ | ⟨_, h'⟩ <;>
      simp only [h, h', hn]
  have hs : (classGetItem (runGet cname [] (first :: later)) cname item).2 = (classGetItem (runGet cname [] (first :: later)) cname first).2 ∨
      ∀ m ∈ runGet cname [] (first :: later), m.name ≠ cname ++ ("[" ++ (item.name ++ "]")) := by
    unfold classGetItem
    dsimp only
    rw [hn]
    cases h : (runGet cname [] (first :: later)).find? fun m => decide (m.name = cname ++ ("[" ++ (item.name ++ "]"))) with
    | some m => exact Or.inl rfl
    | none => exact Or.inr fun m hm => by simpa using List.find?_eq_none.1 h m hm
  have hfirst : (⟨cname ++ ("[" ++ (first.name ++ "]")), 0, first⟩ : Made) ∈ runGet cname [] (first :: later) :=
    run_keep cname later _ _ (by simp [classGetItem])
  rcases hs with hs | hs
  · rw [hs]
    have h2 : (classGetItem (runGet cname [] (first :: later)) cname first).2 = (classGetItem (runGet cname [] []) cname first).2 := h1
    rw [h2]
    exact hd
  · exact absurd (by rw [hn]) (hs _ hfirst)

/-- A case: two classes `Point` of different modules. -/
example : (classGetItem (runGet "ObjectCollection" [] [⟨"Point", 1⟩, ⟨"Line", 2⟩]) "ObjectCollection" ⟨"Point", 3⟩).2 =
    ⟨"ObjectCollection[Point]", 0, ⟨"Point", 1⟩⟩ := by decide +kernel

/-! ## C458 -/

/-- **C458, refuted.** Whatever a program adds, removes or clears, the contents stay the same and every call reports failure. -/
theorem C458_changes_refuted {V : Type} : ∀ (ops : List (Op V)) (c : List V), runOps c ops = (c, List.replicate ops.length false)
  | [], _ => rfl
  | o :: l, c => by
    have h : apply c o = (c, false) := by cases o <;> rfl
    simp only [runOps, h, C458_changes_refuted l c]
    rfl

/-- **C458, refuted.** No item is contained in any collection, `count` is zero and `find` answers with the first place, also when the item is there
at another place or not there. -/
theorem C458_queries_refuted {V : Type} (c : List V) (v w : V) (k : Int) :
    contains (append c v) v = false ∧ count (append c v) ≠ (append c v).length ∧ (v ∉ c → find c v k ≠ -1) ∧
      (w ≠ v → find [w, v] v 0 ≠ 1) := by
  refine ⟨rfl, ?_, fun _ => by unfold find; decide, fun _ => by unfold find; decide⟩
  unfold count append
  rw [List.length_append, List.length_singleton]
  intro h
  have : (0 : Int) ≤ c.length := Int.natCast_nonneg _
  push_cast at h
  omega

/-- **C458, refuted.** Indexing gives a new object, never an item of the collection. -/
theorem C458_index_refuted {V : Type} (fresh : V) (c : List V) (hf : fresh ∉ c) (i : Nat) (h : i < c.length) : getItem fresh c i ≠ c[i] := by
  intro e
  have e' : fresh = c[i] := e
  rw [e'] at hf
  exact hf (List.getElem_mem h)

/-- **C458, partial.** `cast` keeps number and order of the items, and what is appended is at the end. -/
theorem C458_cast_partial {A V : Type} (f : A → V) (arg : List A) (v : V) :
    cast (fun a => some (f a)) arg = some (arg.map f) ∧ ∃ c, append (arg.map f) v = c ++ [v] ∧ c.length = arg.length := by
  refine ⟨?_, arg.map f, rfl, by simp⟩
  unfold cast
  induction arg with
  | nil => rfl
  | cons a l ih => rw [List.mapM_cons, ih]; rfl

/-! ## C459 -/

theorem lookup_map {V : Type} (g : String → V) : ∀ (l : List String) (k : String), k ∈ l → (l.map fun k => (k, g k)).lookup k = some (g k)
  | a :: l, k, h => by
    rw [List.map_cons, List.lookup_cons]
    by_cases e : k = a
    · subst e; simp
    · have : (k == a) = false := by simpa using e
      rw [this]
      exact lookup_map g l k ((List.mem_cons.1 h).resolve_left e)

/-- **C459, own method.** For a class with its own `create` without `**kwargs` every mapping is accepted; unknown keys are dropped, a parameter gets
the value of its key, and `None` when the key is missing. -/
theorem C459_own_partial {V : Type} (pyNone : V) (c : Create V) (hv : c.varkw = false) (m : Mro V) (data : List (String × V)) :
    fromData pyNone (some c :: m) data = some (c.params.map (fun p => (data.lookup p.1).getD pyNone), []) := by
  unfold fromData
  simp only [resolve, accept, hv, Bool.false_eq_true, if_false]
  unfold call
  have h1 : (((c.params.map Prod.fst).map fun k => (k, (data.lookup k).getD pyNone)).any fun k => decide (k.1 ∉ c.params.map Prod.fst)) = false := by
    rw [List.any_eq_false]
    intro x hx
    obtain ⟨k, hk, rfl⟩ := List.mem_map.1 hx
    simp only [decide_eq_true_eq, not_not]
    exact hk
  have h2 : (((c.params.map Prod.fst).map fun k => (k, (data.lookup k).getD pyNone)).filter fun k => decide (k.1 ∉ c.params.map Prod.fst)) = [] := by
    rw [List.filter_eq_nil_iff]
    exact List.any_eq_false.1 h1
  rw [h1, h2]
  simp only [hv, Bool.not_false, Bool.and_false, Bool.false_eq_true, if_false]
  have h3 : ∀ l : List (String × Option V), (∀ p ∈ l, p.1 ∈ c.params.map Prod.fst) →
      l.mapM (argOf ((c.params.map Prod.fst).map fun k => (k, (data.lookup k).getD pyNone))) =
        some (l.map fun p => (data.lookup p.1).getD pyNone) := by
    intro l hl
    induction l with
    | nil => rfl
    | cons p l ih =>
      rw [List.mapM_cons, ih fun q hq => hl q (List.mem_cons_of_mem _ hq)]
      have : argOf ((c.params.map Prod.fst).map fun k => (k, (data.lookup k).getD pyNone)) p = some ((data.lookup p.1).getD pyNone) := by
        unfold argOf
        rw [lookup_map (fun k => (data.lookup k).getD pyNone) _ p.1 (hl p List.mem_cons_self)]
      rw [this]
      rfl
  rw [h3 c.params fun p hp => List.mem_map_of_mem hp]
  rfl

/-- **C459, refuted, defaults.** A parameter with a default other than `None` whose key is missing gets `None`, not the default. -/
theorem C459_default_refuted {V : Type} (pyNone : V) (c : Create V) (hv : c.varkw = false) (m : Mro V) (data : List (String × V)) (name : String) (d : V)
    (hd : d ≠ pyNone) (hp : (name, some d) ∈ c.params) (hk : data.lookup name = none) :
    ∃ vs, fromData pyNone (some c :: m) data = some (vs, []) ∧ ∃ (i : Nat) (h : i < vs.length) (h' : i < c.params.length), c.params[i] = (name, some d) ∧
      vs[i] = pyNone ∧ vs[i] ≠ d := by
  refine ⟨_, C459_own_partial pyNone c hv m data, ?_⟩
  obtain ⟨i, hi, e⟩ := List.getElem_of_mem hp
  refine ⟨i, by simpa using hi, hi, e, ?_⟩
  simp only [List.getElem_map, e, hk, Option.getD_none]
  exact ⟨trivial, fun h => hd h.symm⟩

/-- **C459, refuted, inheritance.** A class that inherits a `create` without `**kwargs` raises for a mapping with a key that is not a parameter, which
the base class accepts. -/
theorem C459_inherit_refuted {V : Type} (pyNone : V) (c : Create V) (hv : c.varkw = false) (m : Mro V) (data : List (String × V)) (k : String) (v : V)
    (hk : (k, v) ∈ data) (hp : k ∉ c.params.map Prod.fst) :
    fromData pyNone (none :: some c :: m) data = none ∧ (fromData pyNone (some c :: m) data).isSome := by
  refine ⟨?_, by rw [C459_own_partial pyNone c hv m data]; rfl⟩
  unfold fromData
  simp only [resolve, accept, if_true]
  unfold call
  have h : (data.any fun k => decide (k.1 ∉ c.params.map Prod.fst)) = true :=
    List.any_eq_true.2 ⟨(k, v), hk, by simpa using hp⟩
  rw [h, hv]
  rfl

/-- A case: `create(x=0, y=7)` with the mapping `{"x": 5, "z": 1}`; `None` is 99. -/
example : fromData 99 [some ⟨[("x", some 0), ("y", some 7)], false⟩] [("x", 5), ("z", 1)] = some ([5, 99], []) ∧
    fromData 99 [none, some ⟨[("x", some 0), ("y", some 7)], false⟩] [("x", 5), ("z", 1)] = none := by decide

/-! ## C460 -/

section
variable {K : Type} [Field K] [LinearOrder K] [IsStrictOrderedRing K]

theorem fold_sub (f : Nat → K) (s : K) (n : Nat) : (List.range n).foldl (fun s k => s - f k) s = s - ∑ k ∈ Finset.range n, f k := by
  induction n with
  | zero => simp
  | succ n ih => rw [List.range_succ, List.foldl_append, ih, List.foldl_cons, List.foldl_nil, Finset.sum_range_succ]; ring

theorem back_spec (small : K) (hs : 0 < small) (A : Mat K) (b : List K) : ∀ (i : Nat) (x y : List K), i + x.length = b.length →
    (∀ r, i ≤ r → r < b.length → ∑ k ∈ Finset.range (b.length - r), ent A r (r + k) * x.getD (r - i + k) 0 = b.getD r 0) →
    backLoop small A b i x = some y →
    y.length = b.length ∧ ∀ r, r < b.length → ∑ k ∈ Finset.range (b.length - r), ent A r (r + k) * y.getD (r + k) 0 = b.getD r 0
  | 0, x, y, hl, h, e => by
    cases e
    exact ⟨by omega, fun r hr => by simpa using h r (Nat.zero_le _) hr⟩
  | i + 1, x, y, hl, h, e => by
    rw [backLoop] at e
    split_ifs at e with hp
    have hne : ent A i i ≠ 0 := by
      intro h0
      rw [h0, abs_zero] at hp
      exact hp hs
    refine back_spec small hs A b i _ y (by rw [List.length_cons]; omega) (fun r hr hrb => ?_) e
    rcases Nat.eq_or_lt_of_le hr with rfl | hlt
    · rw [show b.length - i = x.length + 1 by omega, Finset.sum_range_succ', fold_sub]
      simp only [Nat.sub_self, Nat.zero_add, Nat.add_zero, List.getD_cons_zero, List.getD_cons_succ]
      rw [mul_div_cancel₀ _ hne]
      rw [Finset.sum_congr rfl fun k _ => by rw [show i + (k + 1) = i + 1 + k by omega]]
      ring
    · rw [← h r hlt hrb]
      refine Finset.sum_congr rfl fun k _ => ?_
      rw [show r - i + k = (r - (i + 1) + k) + 1 by omega, List.getD_cons_succ]

/-- **C460, back substitution, partial.** For an upper triangular matrix whose pivots are not too small `back_solve` gives the solution of the system:
all sums over the upper triangle are the right sides. -/
theorem C460_back_partial (small : K) (hs : 0 < small) (A : Mat K) (b : List K) (hp : ∀ i, i < b.length → small ≤ |ent A i i|) :
    (backSolve small A b).length = b.length ∧
      ((∀ i j, j < i → ent A i j = 0) → ∀ r, r < b.length →
        ∑ j ∈ Finset.range b.length, ent A r j * (backSolve small A b).getD j 0 = b.getD r 0) := by
  have hex : ∀ (i : Nat) (x : List K), i ≤ b.length → ∃ y, backLoop small A b i x = some y := by
    intro i
    induction i with
    | zero => exact fun x _ => ⟨x, rfl⟩
    | succ i ih =>
      intro x hi
      rw [backLoop, if_neg (not_lt.2 (hp i (by omega)))]
      exact ih _ (by omega)
  obtain ⟨y, hy⟩ := hex b.length [] (le_refl _)
  have hb : backSolve small A b = y := by unfold backSolve; rw [hy]; rfl
  have h := back_spec small hs A b b.length [] y (by simp) (fun r h1 h2 => by omega) hy
  rw [hb]
  refine ⟨h.1, fun hu r hr => ?_⟩
  rw [← h.2 r hr, ← Finset.sum_range_add_sum_Ico _ (le_of_lt hr)]
  rw [Finset.sum_eq_zero (fun j hj => by rw [hu r j (Finset.mem_range.1 hj), zero_mul]), zero_add, Finset.sum_Ico_eq_sum_range]

/-- **C460, refuted, pivots.** With one pivot too small the result is zero, whatever the right side. -/
theorem C460_pivot_refuted (small : K) (A : Mat K) (b : List K) (i : Nat) (hi : i < b.length) (hp : |ent A i i| < small) :
    backSolve small A b = List.replicate b.length 0 := by
  have hex : ∀ (j : Nat) (x : List K), i < j → backLoop small A b j x = none := by
    intro j
    induction j with
    | zero => exact fun x h => absurd h (Nat.not_lt_zero _)
    | succ j ih =>
      intro x h
      rw [backLoop]
      split_ifs with h'
      · rfl
      · rcases Nat.eq_or_lt_of_le (Nat.le_of_lt_succ h) with rfl | hlt
        · exact absurd hp h'
        · exact ih _ hlt
  unfold backSolve
  rw [hex _ _ hi]
  rfl

/-- **C460, refuted.** `row_reduce` does not change the right side: for the matrix `((1, 0), (m, 1))` the two methods together return the right side
itself, which solves the system only if `m` or the first component is zero. -/
theorem C460_solve_refuted (small reg m b0 b1 : K) (hs : 0 < small) (h1 : small ≤ 1) (hm : |m| ≤ 1) :
    backSolve small (rowReduce small reg [[1, 0], [m, 1]]) [b0, b1] = [b0, b1] ∧ (m * b0 + 1 * b1 = b1 ↔ m = 0 ∨ b0 = 0) := by
  refine ⟨?_, by rw [one_mul, add_eq_right, mul_eq_zero]⟩
  have hr : rowReduce small reg [[1, 0], [m, 1]] = [[1, 0], [0, 1]] := by
    have e0 : reduceStep small reg 2 [[1, 0], [m, 1]] 0 = [[1, 0], [0, 1]] := by
      have hp : pivotRow [[1, 0], [m, 1]] 0 (2 - (0 + 1)) (0 + 1) 0 = 0 := by
        show (if |m| > |(1 : K)| then 1 else 0) = 0
        rw [abs_one, if_neg (not_lt.2 hm)]
      unfold reduceStep
      rw [hp]
      simp [not_lt.2 h1, elim, ent]
    have e1 : reduceStep small reg 2 [[1, 0], [0, 1]] 1 = ([[1, 0], [0, 1]] : Mat K) := by
      simp [reduceStep, pivotRow, not_lt.2 h1, elim, ent]
    show reduceStep small reg 2 (reduceStep small reg 2 [[1, 0], [m, 1]] 0) 1 = _
    rw [e0, e1]
  rw [hr]
  simp [backSolve, backLoop, ent, not_lt.2 h1, List.range_succ]

/-- The rows and columns of the reduced matrix are those that are not fixed. -/
theorem C460_reduced (active : List Nat) (h : Mat K) :
    (reducedHessian active h).length = (active.filter fun a => decide (a = 0)).length ∧
      ∀ row ∈ reducedHessian active h, row.length = (active.filter fun a => decide (a = 0)).length ∧
        ∃ i, active.getD i 1 = 0 ∧ ∀ a ∈ row, ∃ j, active.getD j 1 = 0 ∧ a = ent h i j := by
  have hlen : ∀ (l : List Nat) (k : Nat), (((l.zipIdx k).filter fun a => decide (a.1 = 0)).map Prod.snd).length = (l.filter fun a => decide (a = 0)).length := by
    intro l
    induction l with
    | nil => intro k; rfl
    | cons a l ih =>
      intro k
      rw [List.zipIdx_cons, List.filter_cons, List.filter_cons]
      by_cases h : a = 0
      · simpa [h] using ih (k + 1)
      · simpa [h] using ih (k + 1)
  have hmem : ∀ i ∈ (active.zipIdx.filter fun a => decide (a.1 = 0)).map Prod.snd, active.getD i 1 = 0 := by
    intro i hi
    obtain ⟨⟨a, k⟩, ha, rfl⟩ := List.mem_map.1 hi
    obtain ⟨h1, h2⟩ := List.mem_filter.1 ha
    have := List.mem_zipIdx_iff_getElem?.1 h1
    dsimp only at this ⊢
    rw [List.getD_eq_getElem?_getD, this]
    simpa using h2
  unfold reducedHessian
  dsimp only
  refine ⟨by rw [List.length_map, hlen], fun row hr => ?_⟩
  obtain ⟨i, hi, rfl⟩ := List.mem_map.1 hr
  refine ⟨by rw [List.length_map, hlen], i, hmem i hi, fun a ha => ?_⟩
  obtain ⟨j, hj, rfl⟩ := List.mem_map.1 ha
  exact ⟨j, hmem j hj, rfl⟩

/-- A case: an upper triangular system of three equations; and a system that is solved wrongly. -/
example : backSolve (1 / 1000) [[2, 1, 1], [0, 3, 1], [0, 0, 4]] [7, 9, (8 : ℚ)] = [4 / 3, 7 / 3, 2] ∧
    backSolve (1 / 1000) (rowReduce (1 / 1000) 1 [[2, 1], [1, 3]]) [(3 : ℚ), 4] ≠ [1, 1] := by decide +kernel

end

end Verif.Acl
