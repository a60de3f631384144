import Verif.Rtn.Model
import Mathlib.Tactic.Ring
import Mathlib.Tactic.Linarith
import Mathlib.Tactic.NormNum
import Mathlib.Tactic.FieldSimp
import Mathlib.Tactic.SplitIfs
import Mathlib.Data.List.Basic
import Mathlib.Data.Nat.ModEq
import Mathlib.Algebra.Order.Field.Basic
import Mathlib.Data.Rat.Defs
import Mathlib.Algebra.Field.Rat
import Mathlib.Algebra.Order.Ring.Rat

/-! # Array routines: minima, products, grids, shapes, splitting (C297–C302) -/

set_option linter.unusedSectionVars false
set_option linter.unusedVariables false

namespace Verif.Rtn

/-! ## C297 `nd_min`, `nd_max`, `find_similar` -/

section
variable {K : Type} [LinearOrder K]

/-- The elements of a value in `n` places: a number is the same everywhere. -/
def Val.get : Val K → ℕ → Option K
  | .num x, _ => some x
  | .arr l, i => l[i]?

theorem lower_eq (x c : K) : lower x c = min x c := by
  unfold lower; split_ifs with h
  · rw [min_eq_right (le_of_lt h)]
  · rw [min_eq_left (not_lt.mp h)]
theorem raise_eq (x c : K) : raise x c = max x c := by
  unfold raise; split_ifs with h
  · rw [max_eq_right (le_of_lt h)]
  · rw [max_eq_left (not_lt.mp h)]

/-- The value is the minimum in every place. -/
theorem C297_min {a b : Val K} {o : Out K} (h : ndMin a b = some o) (i : ℕ) (x y : K) (hx : a.get i = some x) (hy : b.get i = some y) :
    o.ret.get i = some (min x y) := by
  cases a with
  | num a =>
    cases b with
    | num b =>
      simp [ndMin] at h; subst h
      simp [Val.get] at hx hy ⊢; rw [hx, hy]
    | arr b =>
      simp [ndMin] at h; subst h
      simp [Val.get] at hx hy ⊢; subst hx
      exact ⟨y, hy, by rw [lower_eq, min_comm]⟩
  | arr a =>
    cases b with
    | num b =>
      simp [ndMin] at h; subst h
      simp [Val.get] at hx hy ⊢; subst hy
      exact ⟨x, hx, by rw [lower_eq]⟩
    | arr b =>
      simp only [ndMin] at h
      split_ifs at h with hl
      simp only [Option.some.injEq] at h; subst h
      simp only [Val.get] at hx hy ⊢
      rw [List.getElem?_zipWith, hx, hy]; simp [lower_eq]

/-- The value is the maximum in every place. -/
theorem C297_max {a b : Val K} {o : Out K} (h : ndMax a b = some o) (i : ℕ) (x y : K) (hx : a.get i = some x) (hy : b.get i = some y) :
    o.ret.get i = some (max x y) := by
  cases a with
  | num a =>
    cases b with
    | num b =>
      simp [ndMax] at h; subst h
      simp [Val.get] at hx hy ⊢; rw [hx, hy]
    | arr b =>
      simp [ndMax] at h; subst h
      simp [Val.get] at hx hy ⊢; subst hx
      exact ⟨y, hy, by rw [raise_eq, max_comm]⟩
  | arr a =>
    cases b with
    | num b =>
      simp [ndMax] at h; subst h
      simp [Val.get] at hx hy ⊢; subst hy
      exact ⟨x, hx, by rw [raise_eq]⟩
    | arr b =>
      simp only [ndMax] at h
      split_ifs at h with hl
      simp only [Option.some.injEq] at h; subst h
      simp only [Val.get] at hx hy ⊢
      rw [List.getElem?_zipWith, hx, hy]; simp [raise_eq]

/-- The array passed by the caller is overwritten with the result: it survives only when it was not larger anywhere. -/
theorem C297_argument_refuted (a b : List K) (hl : a.length = b.length) :
    ∃ o, ndMin (.arr a) (.arr b) = some o ∧ o.a = o.ret ∧
      (o.a = .arr a ↔ ∀ (i : ℕ) (x y : K), a[i]? = some x → b[i]? = some y → x ≤ y) := by
  refine ⟨⟨.arr (List.zipWith lower a b), .arr (List.zipWith lower a b), .arr b⟩, by simp [ndMin, hl], rfl, ?_⟩
  simp only [Val.arr.injEq]
  constructor
  · intro h i x y hx hy
    have : (List.zipWith lower a b)[i]? = some (lower x y) := by rw [List.getElem?_zipWith, hx, hy]
    rw [h, hx, lower_eq] at this
    simp only [Option.some.injEq] at this
    rw [this]; exact min_le_right _ _
  · intro h
    apply List.ext_getElem?
    intro i
    rw [List.getElem?_zipWith]
    cases hx : a[i]? with
    | none => rfl
    | some x =>
      cases hy : b[i]? with
      | none =>
        have h1 : i < a.length := by
          by_contra hc; rw [List.getElem?_eq_none (by omega)] at hx; simp at hx
        rw [List.getElem?_eq_none_iff] at hy; omega
      | some y => simp [lower_eq, h i x y hx hy]

example : ndMin (.arr [1, 5, 3]) (.arr [2, 4, 6]) = some (⟨.arr [1, 4, 3], .arr [1, 4, 3], .arr [2, 4, 6]⟩ : Out ℤ) := by decide

end

section
variable {K : Type} [AddCommGroup K] [LinearOrder K]

theorem foldl_min_le (l : List K) (d : K) : l.foldl min d ≤ d ∧ ∀ x ∈ l, l.foldl min d ≤ x := by
  induction l generalizing d with
  | nil => simp
  | cons y l ih =>
    rw [List.foldl_cons]
    obtain ⟨h1, h2⟩ := ih (min d y)
    refine ⟨le_trans h1 (min_le_left _ _), ?_⟩
    intro x hx
    rcases List.mem_cons.mp hx with e | e
    · subst e; exact le_trans h1 (min_le_right _ _)
    · exact h2 x e

theorem foldl_min_mem (l : List K) (d : K) : l.foldl min d = d ∨ l.foldl min d ∈ l := by
  induction l generalizing d with
  | nil => simp
  | cons y l ih =>
    rw [List.foldl_cons]
    rcases ih (min d y) with h | h
    · rcases min_choice d y with e | e
      · rw [e] at h ⊢; left; exact h
      · right; rw [h, e]; simp
    · right; simp [h]

/-- `find_similar` returns exactly the indices of the nearest values; there is one whenever there are values. -/
theorem C297_similar (value : K) (values : List K) (hne : values ≠ []) :
    ∃ ix, findSimilar value values = some ix ∧ ix ≠ [] ∧
      ∀ i, i ∈ ix ↔ ∃ x, values[i]? = some x ∧ ∀ y ∈ values, |x - value| ≤ |y - value| := by
  cases values with
  | nil => exact absurd rfl hne
  | cons z zs =>
    set ds := (z :: zs).map (fun x => |x - value|) with hds
    have hcons : ds = |z - value| :: zs.map (fun x => |x - value|) := by rw [hds]; rfl
    set m := (zs.map (fun x => |x - value|)).foldl min |z - value| with hm
    have hf : findSimilar value (z :: zs) = some ((List.range (z :: zs).length).filter (fun i => ds[i]? = some m)) := by
      unfold findSimilar
      simp only [List.map_cons]
      rfl
    have hle : ∀ y ∈ z :: zs, m ≤ |y - value| := by
      intro y hy
      have := foldl_min_le (zs.map (fun x => |x - value|)) |z - value|
      rcases List.mem_cons.mp hy with e | e
      · subst e; exact this.1
      · exact this.2 _ (List.mem_map.mpr ⟨y, e, rfl⟩)
    have hmem : ∃ y ∈ z :: zs, |y - value| = m := by
      rcases foldl_min_mem (zs.map (fun x => |x - value|)) |z - value| with h | h
      · exact ⟨z, by simp, h.symm⟩
      · obtain ⟨y, hy, he⟩ := List.mem_map.mp h
        exact ⟨y, by simp [hy], he⟩
    have hiff : ∀ i, i ∈ (List.range (z :: zs).length).filter (fun i => ds[i]? = some m) ↔
        ∃ x, (z :: zs)[i]? = some x ∧ ∀ y ∈ z :: zs, |x - value| ≤ |y - value| := by
      intro i
      rw [List.mem_filter, List.mem_range, decide_eq_true_eq]
      constructor
      · rintro ⟨h1, h2⟩
        refine ⟨(z :: zs)[i], List.getElem?_eq_getElem h1, ?_⟩
        rw [hds, List.getElem?_map, List.getElem?_eq_getElem h1] at h2
        simp only [Option.map_some, Option.some.injEq] at h2
        intro y hy; rw [h2]; exact hle y hy
      · rintro ⟨x, h1, h2⟩
        have hi : i < (z :: zs).length := by
          by_contra hc; rw [List.getElem?_eq_none (by omega)] at h1; simp at h1
        refine ⟨hi, ?_⟩
        rw [hds, List.getElem?_map, h1]
        simp only [Option.map_some, Option.some.injEq]
        obtain ⟨y, hy, he⟩ := hmem
        apply le_antisymm
        · rw [← he]; exact h2 y hy
        · exact hle x (List.mem_of_getElem? h1)
    refine ⟨_, hf, ?_, hiff⟩
    intro hc
    obtain ⟨y, hy, he⟩ := hmem
    obtain ⟨i, hi⟩ := List.getElem?_of_mem hy
    have := (hiff i).mpr ⟨y, hi, fun y' hy' => by rw [he]; exact hle y' hy'⟩
    rw [hc] at this; simp at this

end

example : findSimilar (3 : ℚ) [1, 5, 4, 2, 7] = some [2, 3] := by decide +kernel

/-! ## C298 `cartesian_product`, `box_from_intervals` -/

/-- The product of lists, defined by recursion: the first list is the slowest. -/
def tuples {α : Type} : List (List α) → List (List α)
  | [] => [[]]
  | a :: rest => a.flatMap (fun x => (tuples rest).map (x :: ·))

theorem cpRow_mod {α : Type} (arrays : List (List α)) (m r : ℕ) :
    cpRow arrays (r % (prod (arrays.map List.length) * m)) = cpRow arrays r ∨ m = 0 := by
  induction arrays generalizing m r with
  | nil => left; rfl
  | cons a rest ih =>
    rcases Nat.eq_zero_or_pos m with h0 | h0
    · exact Or.inr h0
    left
    set P := prod (rest.map List.length) with hP
    have hp : prod ((a :: rest).map List.length) = a.length * P := rfl
    rw [hp]
    rw [cpRow, cpRow, ← hP]
    have e1 : r % (a.length * P * m) / P % a.length = r / P % a.length := by
      have h1 : a.length * P * m = P * (a.length * m) := by ring
      rw [h1, Nat.mod_mul_right_div_self, Nat.mod_mul_right_mod]
    rw [e1]
    congr 1
    rcases Nat.eq_zero_or_pos (a.length * m) with h | h
    · have : a.length * P * m = 0 := by
        rw [mul_right_comm, h, zero_mul]
      rw [this, Nat.mod_zero]
    · have h1 : a.length * P * m = P * (a.length * m) := by ring
      rw [h1]
      rcases ih (a.length * m) r with h' | h'
      · exact h'
      · omega

theorem range_mul (n P : ℕ) : List.range (n * P) = (List.range n).flatMap (fun i => (List.range P).map (fun j => i * P + j)) := by
  induction n with
  | zero => simp
  | succ n ih =>
    rw [Nat.succ_mul, List.range_add, ih, List.range_succ, List.flatMap_append]
    simp

theorem flatMap_range {α β : Type} (l : List α) (f : α → List β) :
    l.flatMap f = (List.range l.length).flatMap (fun i => (l[i]?).elim [] f) := by
  induction l with
  | nil => rfl
  | cons x l ih =>
    rw [List.length_cons, List.range_succ_eq_map, List.flatMap_cons, List.flatMap_cons, List.flatMap_map, ih]
    simp

/-- The rows are all tuples, each combination of indices once, the last array changing fastest. -/
theorem C298_product {α : Type} (arrays : List (List α)) : cartesianProduct arrays = (tuples arrays).map (List.map some) := by
  induction arrays with
  | nil => rfl
  | cons a rest ih =>
    unfold cartesianProduct at ih ⊢
    set P := prod (rest.map List.length) with hP
    have hp : prod ((a :: rest).map List.length) = a.length * P := rfl
    rw [hp, range_mul, List.map_flatMap, tuples, List.map_flatMap]
    have hA := flatMap_range a (fun x => ((tuples rest).map (x :: ·)).map (List.map some))
    rw [hA]
    apply List.flatMap_congr
    intro i hi
    rw [List.mem_range] at hi
    rw [List.getElem?_eq_getElem hi, Option.elim_some]
    rw [List.map_map, List.map_map]
    have : (tuples rest).map (List.map some ∘ (a[i] :: ·)) = ((tuples rest).map (List.map some)).map (some a[i] :: ·) := by
      rw [List.map_map]; rfl
    rw [this, ← ih, List.map_map]
    apply List.map_congr_left
    intro j hj
    rw [List.mem_range] at hj
    have hPpos : 0 < P := by omega
    simp only [Function.comp_apply]
    rw [cpRow, ← hP]
    have e1 : (i * P + j) / P % a.length = i := by
      rw [Nat.mul_comm, Nat.mul_add_div hPpos, Nat.div_eq_of_lt hj, add_zero, Nat.mod_eq_of_lt hi]
    rw [e1, List.getElem?_eq_getElem hi]
    congr 1
    have e2 := cpRow_mod rest 1 (i * P + j)
    rw [mul_one, ← hP] at e2
    rcases e2 with e2 | e2
    · rw [← e2]; congr 1
      rw [Nat.mul_comm, Nat.mul_add_mod, Nat.mod_eq_of_lt hj]
    · omega

theorem mem_tuples {α : Type} (arrays : List (List α)) (t : List α) :
    t ∈ tuples arrays ↔ List.Forall₂ (fun x a => x ∈ a) t arrays := by
  induction arrays generalizing t with
  | nil => simp [tuples]
  | cons a rest ih =>
    simp only [tuples, List.mem_flatMap, List.mem_map]
    constructor
    · rintro ⟨x, hx, t', ht', rfl⟩
      exact List.Forall₂.cons hx ((ih t').mp ht')
    · intro h
      cases h with
      | cons hx ht => exact ⟨_, hx, _, (ih _).mpr ht, rfl⟩

/-- A row is in the product exactly when each of its entries is in the array of its place. -/
theorem C298_members {α : Type} (arrays : List (List α)) (t : List α) :
    t.map some ∈ cartesianProduct arrays ↔ List.Forall₂ (fun x a => x ∈ a) t arrays := by
  rw [C298_product, ← mem_tuples]
  constructor
  · intro h
    obtain ⟨t', ht', e⟩ := List.mem_map.mp h
    have : t' = t := List.map_injective_iff.mpr (Option.some_injective _) e
    rw [← this]; exact ht'
  · intro h; exact List.mem_map.mpr ⟨t, h, rfl⟩

/-- The rows of `box_from_intervals` are exactly the corners: in every coordinate the lower or the upper end. -/
theorem C298_corners {α : Type} (start stop : List α) (hl : start.length = stop.length) (t : List α) :
    t.map some ∈ boxFromIntervals start stop ↔
      t.length = start.length ∧ ∀ (i : ℕ) (x s e : α), t[i]? = some x → start[i]? = some s → stop[i]? = some e → x = s ∨ x = e := by
  unfold boxFromIntervals
  rw [C298_members]
  induction start generalizing stop t with
  | nil =>
    simp only [List.zipWith_nil_left, List.forall₂_nil_right_iff, List.length_nil, List.length_eq_zero_iff]
    constructor
    · rintro rfl; exact ⟨rfl, by simp⟩
    · exact fun h => h.1
  | cons s start ih =>
    cases stop with
    | nil => simp at hl
    | cons e stop =>
      rw [List.zipWith_cons_cons]
      cases t with
      | nil => simp
      | cons x t =>
        rw [List.forall₂_cons, ih stop (by simpa using hl) t]
        constructor
        · rintro ⟨h1, h2, h3⟩
          refine ⟨by simp [h2], ?_⟩
          intro i y s' e' hy hs he
          cases i with
          | zero =>
            simp at hy hs he; subst hy hs he
            simpa using h1
          | succ i => exact h3 i y s' e' (by simpa using hy) (by simpa using hs) (by simpa using he)
        · rintro ⟨h1, h2⟩
          refine ⟨by simpa using h2 0 x s e rfl rfl rfl, by simpa using h1, ?_⟩
          intro i y s' e' hy hs he
          exact h2 (i + 1) y s' e' (by simpa using hy) (by simpa using hs) (by simpa using he)

example : cartesianProduct [[1, 2], [3, 4, 5]] =
    [[some 1, some 3], [some 1, some 4], [some 1, some 5], [some 2, some 3], [some 2, some 4], [some 2, some 5]] := by decide
example : boxFromIntervals [0, 0] [1, 2] = [[some 0, some 0], [some 0, some 2], [some 1, some 0], [some 1, some 2]] := by decide

/-! ## C299 `uvs` -/

section
variable {K : Type}

theorem uvInner_spec (u v : ℕ → K) (i n j k : ℕ) (m : ℕ → K × K) :
    (uvInner u v i n j k m).1 = k + n ∧
      ∀ r, (uvInner u v i n j k m).2 r = if k ≤ r ∧ r < k + n then (u i, v (j + (r - k))) else m r := by
  induction n generalizing j k m with
  | zero => simp [uvInner]
  | succ n ih =>
    rw [uvInner]
    obtain ⟨h1, h2⟩ := ih (j + 1) (k + 1) (Function.update m k (u i, v j))
    refine ⟨by rw [h1]; omega, fun r => ?_⟩
    rw [h2]
    by_cases hr : r = k
    · subst hr
      rw [if_neg (by omega), if_pos (by omega)]; simp
    · rw [Function.update_of_ne hr]
      by_cases hc : k + 1 ≤ r ∧ r < k + 1 + n
      · rw [if_pos hc, if_pos (by omega)]
        have : j + 1 + (r - (k + 1)) = j + (r - k) := by omega
        rw [this]
      · rw [if_neg hc, if_neg (by omega)]

theorem uvOuter_spec (u v : ℕ → K) (vc n i k : ℕ) (m : ℕ → K × K) (hk : k = i * vc) :
    ∀ r, (uvOuter u v vc n i k m).2 r = if k ≤ r ∧ r < (i + n) * vc then (u (r / vc), v (r % vc)) else m r := by
  induction n generalizing i k m with
  | zero => intro r; rw [uvOuter, if_neg (by rw [hk, add_zero]; omega)]
  | succ n ih =>
    intro r
    rw [uvOuter]
    obtain ⟨h1, h2⟩ := uvInner_spec u v i vc 0 k m
    rw [ih (i + 1) _ _ (by rw [h1, hk]; ring)]
    rw [h1, h2]
    have e : (i + 1 + n) * vc = (i + (n + 1)) * vc := by ring
    rw [e]
    have e2 : (i + 1) * vc = i * vc + vc := by ring
    have e3 : (i + (n + 1)) * vc = i * vc + vc + n * vc := by ring
    by_cases ha : k + vc ≤ r ∧ r < (i + (n + 1)) * vc
    · rw [if_pos ha, if_pos ⟨by omega, ha.2⟩]
    · rw [if_neg ha]
      by_cases hb : k ≤ r ∧ r < k + vc
      · rw [if_pos hb, if_pos ⟨hb.1, by rw [e3]; omega⟩]
        have hvc : 0 < vc := by omega
        obtain ⟨d, rfl⟩ : ∃ d, r = k + d := ⟨r - k, by omega⟩
        have hd : d < vc := by omega
        have q1 : (k + d) / vc = i := by
          rw [hk, Nat.mul_comm, Nat.mul_add_div hvc, Nat.div_eq_of_lt hd, add_zero]
        have q2 : (k + d) % vc = d := by
          rw [hk, Nat.mul_comm, Nat.mul_add_mod, Nat.mod_eq_of_lt hd]
        rw [q1, q2]; simp
      · rw [if_neg hb]
        by_cases hc : k ≤ r ∧ r < (i + (n + 1)) * vc
        · exfalso; apply ha; constructor
          · by_contra hh; exact hb ⟨hc.1, by omega⟩
          · exact hc.2
        · rw [if_neg hc]

/-- All parameters of the grid are written, whatever the memory contained: row `i * v_count + j` is `(u i, v j)`. -/
theorem C299_uvs (u v : ℕ → K) (uc vc : ℕ) (mem : ℕ → K × K) (i j : ℕ) (hi : i < uc) (hj : j < vc) :
    (uvs u v uc vc mem).length = uc * vc ∧ (uvs u v uc vc mem)[i * vc + j]? = some (u i, v j) := by
  have hlt : i * vc + j < uc * vc := by
    calc i * vc + j < i * vc + vc := by omega
      _ = (i + 1) * vc := by ring
      _ ≤ uc * vc := Nat.mul_le_mul_right _ hi
  refine ⟨by simp [uvs], ?_⟩
  unfold uvs
  rw [List.getElem?_map, List.getElem?_range hlt]
  simp only [Option.map_some, Option.some.injEq]
  rw [uvOuter_spec u v vc uc 0 0 mem (by simp), if_pos ⟨Nat.zero_le _, by simpa using hlt⟩]
  have hvc : 0 < vc := by omega
  have q1 : (i * vc + j) / vc = i := by
    rw [Nat.mul_comm, Nat.mul_add_div hvc, Nat.div_eq_of_lt hj, add_zero]
  have q2 : (i * vc + j) % vc = j := by
    rw [Nat.mul_comm, Nat.mul_add_mod, Nat.mod_eq_of_lt hj]
  rw [q1, q2]

variable [Field K] [LinearOrder K] [IsStrictOrderedRing K]

/-- The values run from one end to the other in equal steps. -/
theorem C299_linspace (lo hi : K) (n : ℕ) (hn : 2 ≤ n) :
    linspace lo hi n 0 = lo ∧ linspace lo hi n (n - 1) = hi ∧
      (∀ i, linspace lo hi n (i + 1) - linspace lo hi n i = (hi - lo) / ((n : K) - 1)) ∧
      (lo ≤ hi → ∀ i, i < n → lo ≤ linspace lo hi n i ∧ linspace lo hi n i ≤ hi) := by
  have hc : ((n - 1 : ℕ) : K) = (n : K) - 1 := by
    rw [Nat.cast_sub (by omega)]; simp
  have h1 : (1 : K) < (n : K) := by exact_mod_cast (by omega : 1 < n)
  have hpos : (0 : K) < (n : K) - 1 := by linarith
  have hn1 : n ≠ 1 := by omega
  unfold linspace
  simp only [hn1, if_false]
  refine ⟨by simp, ?_, ?_, ?_⟩
  · rw [hc]; field_simp; ring
  · intro i; push_cast; ring
  · intro hle i hi'
    have hs : 0 ≤ (hi - lo) / ((n : K) - 1) := div_nonneg (by linarith) (le_of_lt hpos)
    have hi0 : (0 : K) ≤ (i : K) := Nat.cast_nonneg i
    have hi1 : (i : K) ≤ (n : K) - 1 := by
      rw [← hc]; exact_mod_cast (by omega : i ≤ n - 1)
    refine ⟨by nlinarith, ?_⟩
    have : (i : K) * ((hi - lo) / ((n : K) - 1)) ≤ ((n : K) - 1) * ((hi - lo) / ((n : K) - 1)) :=
      mul_le_mul_of_nonneg_right hi1 hs
    rw [mul_div_cancel₀ _ (ne_of_gt hpos)] at this
    linarith

end

example : uvs (linspace (0 : ℚ) 1 2) (linspace (0 : ℚ) 4 3) 2 3 (fun _ => (7, 7)) =
    [(0, 0), (0, 2), (0, 4), (1, 0), (1, 2), (1, 4)] := by decide +kernel

/-! ## C300 shapes -/

section
variable {K : Type}

theorem prod_append (a b : List ℕ) : prod (a ++ b) = prod a * prod b := by
  induction a with
  | nil => simp [prod]
  | cons x a ih =>
    have h : ∀ (y : ℕ) (l : List ℕ), prod (y :: l) = y * prod l := fun _ _ => rfl
    rw [List.cons_append, h, h, ih, mul_assoc]

theorem prod_cons (x : ℕ) (a : List ℕ) : prod (x :: a) = x * prod a := rfl

theorem prod_split (l : List ℕ) (k d : ℕ) (h : l[k]? = some d) : prod l = prod (l.take k) * d * prod (l.drop (k + 1)) := by
  have hk : k < l.length := by
    by_contra hc; rw [List.getElem?_eq_none (by omega)] at h; simp at h
  have hd : l[k] = d := by rw [List.getElem?_eq_getElem hk] at h; simpa using h
  conv_lhs => rw [← List.take_append_drop k l, List.drop_eq_getElem_cons hk, hd]
  rw [prod_append, prod_cons, mul_assoc]

/-- Splitting a dimension of a nonempty array works exactly when the size divides the dimension; the elements keep their order and
the two new dimensions stand in the place of the old one. -/
theorem C300_split (a : Nd K) (hpos : 0 < prod a.shape) (k : ℕ) (d : ℕ) (hk : a.shape[k]? = some d) (val : ℕ) (hv : val ≠ 0) (before : Bool) :
    splitDim a (k : Int) val before =
      if val ∣ d then some ⟨a.shape.take k ++ (if before then [val, d / val] else [d / val, val]) ++ a.shape.drop (k + 1), a.data⟩ else none := by
  have hlen : k < a.shape.length := by
    by_contra hc; rw [List.getElem?_eq_none (by omega)] at hk; simp at hk
  have hn : normIdx a.shape.length (k : Int) = k := by unfold normIdx; rw [if_neg (by omega)]
  have hp := prod_split a.shape k d hk
  have h1 : 0 < prod (a.shape.take k) := by
    by_contra hc
    have : prod (a.shape.take k) = 0 := by omega
    rw [hp, this] at hpos; simp at hpos
  have h2 : 0 < prod (a.shape.drop (k + 1)) := by
    by_contra hc
    have : prod (a.shape.drop (k + 1)) = 0 := by omega
    rw [hp, this] at hpos; simp at hpos
  have key : prod (a.shape.take k) * (val * (d / val)) * prod (a.shape.drop (k + 1)) = prod a.shape ↔ val ∣ d := by
    rw [hp]
    constructor
    · intro h
      have h3 := Nat.eq_of_mul_eq_mul_right h2 h
      have h4 := Nat.eq_of_mul_eq_mul_left h1 h3
      exact ⟨d / val, h4.symm⟩
    · intro h; rw [Nat.mul_div_cancel' h]
  cases before with
  | true =>
    unfold splitDim insertBefore
    rw [hn]
    simp only [Int.toNat_natCast, hk, if_true]
    rw [if_pos ⟨by omega, by omega, hv⟩, Option.bind_some]
    unfold reshape
    rw [prod_append, prod_append, prod_cons, prod_cons]
    simp only [prod, List.foldr_nil, mul_one] at key ⊢
    by_cases hdv : val ∣ d
    · rw [if_pos (by exact key.mpr hdv), if_pos hdv]
    · rw [if_neg (fun h => hdv (key.mp h)), if_neg hdv]
  | false =>
    unfold splitDim insertAfter
    rw [hn]
    simp only [Int.toNat_natCast, hk, Bool.false_eq_true, if_false]
    rw [if_pos ⟨by omega, by omega, hv⟩, Option.bind_some]
    unfold reshape
    rw [prod_append, prod_append, prod_cons, prod_cons]
    have key' : prod (a.shape.take k) * (d / val * val) * prod (a.shape.drop (k + 1)) = prod a.shape ↔ val ∣ d := by
      rw [Nat.mul_comm (d / val)]; exact key
    simp only [prod, List.foldr_nil, mul_one] at key' ⊢
    by_cases hdv : val ∣ d
    · rw [if_pos (by exact key'.mpr hdv), if_pos hdv]
    · rw [if_neg (fun h => hdv (key'.mp h)), if_neg hdv]

/-- An index counted from the end means the same dimension. -/
theorem C300_negative (a : Nd K) (k : ℕ) (hk : k < a.shape.length) (val : ℕ) (before : Bool) :
    splitDim a ((k : Int) - a.shape.length) val before = splitDim a (k : Int) val before := by
  have e : normIdx a.shape.length ((k : Int) - a.shape.length) = normIdx a.shape.length (k : Int) := by
    unfold normIdx; rw [if_pos (by omega), if_neg (by omega)]; omega
  unfold splitDim insertBefore insertAfter
  rw [e]

/-- `remove_dim` undoes the splitting of the first dimension. -/
theorem C300_roundtrip (a b : Nd K) (hpos : 0 < prod a.shape) (val : ℕ) (hv : val ≠ 0) (before : Bool)
    (h : splitDim a 0 val before = some b) : removeDim b 1 = some a := by
  cases hs : a.shape with
  | nil =>
    unfold splitDim insertBefore insertAfter normIdx at h
    cases before <;> simp [hs] at h
  | cons d rest =>
    have := C300_split a hpos 0 d (by rw [hs]; rfl) val hv before
    rw [show ((0 : ℕ) : Int) = 0 from rfl, h] at this
    by_cases hd : val ∣ d
    · rw [if_pos hd, Option.some.injEq] at this
      subst this
      unfold removeDim reshape
      have e1 : val * (d / val) = d := Nat.mul_div_cancel' hd
      have e2 : d / val * val = d := Nat.div_mul_cancel hd
      cases before with
      | true =>
        simp only [hs, if_true, List.take_zero, List.nil_append, List.drop_succ_cons, List.drop_zero, List.cons_append, zero_add,
          List.take_succ_cons, prod_cons]
        have : prod [] = 1 := rfl
        rw [this, mul_one, e1, ← mul_assoc, e1, if_pos rfl, ← hs]
      | false =>
        simp only [hs, Bool.false_eq_true, if_false, List.take_zero, List.nil_append, List.drop_succ_cons, List.drop_zero, List.cons_append,
          zero_add, List.take_succ_cons, prod_cons]
        have : prod [] = 1 := rfl
        rw [this, mul_one, e2, ← mul_assoc, e2, if_pos rfl, ← hs]
    · rw [if_neg hd] at this; simp at this

/-- `add_dim` with sizes whose product divides the first dimension inserts them after it, in the order given. -/
theorem C300_add (a : Nd K) (n : ℕ) (other : List ℕ) (vals : List ℕ) (hne : vals ≠ []) (hz : 0 ∉ vals)
    (hs : a.shape = n * prod vals :: other) :
    addDim a vals = some ⟨n :: (vals.reverse ++ other), a.data⟩ := by
  induction vals generalizing a other with
  | nil => exact absurd rfl hne
  | cons v vs ih =>
    have hv : v ≠ 0 := fun h => hz (by simp [h])
    have hd : n * prod (v :: vs) / v = n * prod vs := by
      rw [prod_cons, show n * (v * prod vs) = n * prod vs * v by ring, Nat.mul_div_cancel _ (Nat.pos_of_ne_zero hv)]
    rw [addDim, hs]
    dsimp only
    rw [if_neg hv, hd]
    have hr : reshape a (n * prod vs :: v :: other) = some ⟨n * prod vs :: v :: other, a.data⟩ := by
      unfold reshape
      rw [if_pos]
      rw [hs, prod_cons, prod_cons, prod_cons, prod_cons]; ring
    rw [hr, Option.bind_some]
    by_cases hvs : vs = []
    · subst hvs; simp [prod]
    · rw [if_neg hvs, ih _ (v :: other) hvs (fun h => hz (by simp [h])) rfl]
      simp

end

example : splitDim (⟨[6, 2], List.range 12⟩ : Nd ℕ) 0 3 true = some ⟨[3, 2, 2], List.range 12⟩ ∧
    splitDim (⟨[6, 2], List.range 12⟩ : Nd ℕ) (-2) 4 true = none := by decide +kernel
example : addDim (⟨[12, 5], List.range 60⟩ : Nd ℕ) [3, 2] = some ⟨[2, 2, 3, 5], List.range 60⟩ := by decide +kernel

/-! ## C301 `split_by_parts` -/

section
variable {α : Type}

theorem vsplit_flatten (arr : List α) (pos : ℕ) (parts : List ℕ) :
    (vsplit arr pos (cumsum pos parts)).flatten = arr.drop pos ∧ (vsplit arr pos (cumsum pos parts)).length = parts.length + 1 := by
  induction parts generalizing pos with
  | nil => simp [cumsum, vsplit]
  | cons p ps ih =>
    obtain ⟨h1, h2⟩ := ih (pos + p)
    rw [cumsum, vsplit, List.flatten_cons, h1, List.length_cons, h2]
    refine ⟨?_, by simp⟩
    have : pos + p - pos = p := by omega
    rw [this, ← List.drop_drop]
    exact List.take_append_drop p (arr.drop pos)

/-- No row is lost or doubled: the pieces put together are the array, in its order. -/
theorem C301_flatten (arr : List α) (parts : List ℕ) (hne : parts ≠ []) :
    ∃ ps, splitByParts arr parts = some ps ∧ ps.flatten = arr := by
  unfold splitByParts
  rw [List.getLast?_eq_some_getLast hne]
  exact ⟨_, rfl, (vsplit_flatten arr 0 _).1.trans (by simp)⟩

theorem vsplit_sizes (arr : List α) (pos : ℕ) (parts : List ℕ) (h : pos + parts.sum ≤ arr.length) (i p : ℕ) (hi : parts[i]? = some p) :
    ((vsplit arr pos (cumsum pos parts))[i]?).map List.length = some p := by
  induction parts generalizing pos i with
  | nil => simp at hi
  | cons q ps ih =>
    rw [List.sum_cons] at h
    rw [cumsum, vsplit]
    cases i with
    | zero => simp at hi; subst hi; simp; omega
    | succ i =>
      rw [List.getElem?_cons_succ]
      exact ih (pos + q) (by omega) i (by simpa using hi)

theorem le_sum (l : List ℕ) (x : ℕ) (h : x ∈ l) : x ≤ l.sum := by
  induction l with
  | nil => simp at h
  | cons y l ih =>
    rw [List.sum_cons]
    rcases List.mem_cons.mp h with e | e
    · omega
    · have := ih e; omega

/-- When there are enough rows the pieces have the sizes asked for; one more piece holds the rows that are left, an empty one if none is. -/
theorem C301_sizes_partial (arr : List α) (parts : List ℕ) (hne : parts ≠ []) (h : parts.sum ≤ arr.length) :
    ∃ ps, splitByParts arr parts = some ps ∧ ps.length = parts.length + 1 ∧
      (∀ (i p : ℕ), parts[i]? = some p → (ps[i]?).map List.length = some p) ∧
      (ps.getLast?).map List.length = some (arr.length - parts.sum) := by
  have hlast : ¬ parts.getLast hne > arr.length := by
    have : parts.getLast hne ≤ parts.sum := le_sum _ _ (List.getLast_mem hne)
    omega
  have hr : splitByParts arr parts = some (vsplit arr 0 (cumsum 0 parts)) := by
    unfold splitByParts
    rw [List.getLast?_eq_some_getLast hne]
    simp [hlast]
  refine ⟨_, hr, (vsplit_flatten arr 0 parts).2, fun i p hi => vsplit_sizes arr 0 parts (by simpa using h) i p hi, ?_⟩
  have : ∀ (ps : List ℕ) (pos : ℕ), ((vsplit arr pos (cumsum pos ps)).getLast?).map List.length = some (arr.length - (pos + ps.sum)) := by
    intro ps
    induction ps with
    | nil => intro pos; simp [cumsum, vsplit]
    | cons q ps ih =>
      intro pos
      rw [cumsum, vsplit, List.getLast?_cons]
      have hne' : vsplit arr (pos + q) (cumsum (pos + q) ps) ≠ [] := by
        intro hc
        have := (vsplit_flatten arr (pos + q) ps).2
        rw [hc] at this; simp at this
      rw [List.getLast?_eq_some_getLast hne', Option.getD_some]
      have := ih (pos + q)
      rw [List.getLast?_eq_some_getLast hne'] at this
      rw [Option.map_some] at this ⊢
      rw [this, List.sum_cons]; congr 1; omega
  simpa using this parts 0

/-- Parts that use up the rows exactly give a piece too many: the last piece is empty. -/
theorem C301_extra_refuted (arr : List α) (parts : List ℕ) (hne : parts ≠ []) (h : parts.sum = arr.length) :
    ∃ ps, splitByParts arr parts = some ps ∧ ps.length = parts.length + 1 ∧ ps.getLast? = some [] := by
  obtain ⟨ps, h1, h2, _, h3⟩ := C301_sizes_partial arr parts hne (by omega)
  refine ⟨ps, h1, h2, ?_⟩
  rw [h, Nat.sub_self] at h3
  cases hl : ps.getLast? with
  | none => rw [hl] at h3; simp at h3
  | some l =>
    rw [hl] at h3
    simp only [Option.map_some, Option.some.injEq] at h3
    rw [List.eq_nil_of_length_eq_zero h3]

end

example : splitByParts [1, 2, 3, 4, 5] [2, 3] = some [[1, 2], [3, 4, 5], []] := by decide

/-! ## C302 `column_concat` -/

section
variable {K : Type}

/-- A matrix with as many rows is put beside the first one. -/
theorem C302_matrix (a b : List (List K)) (h : a.length = b.length) :
    columnConcat a (.mat b) = some (List.zipWith (· ++ ·) a b) := by
  simp [columnConcat, h]

/-- A vector is appended to every row, if its length is not the number of rows. -/
theorem C302_vector_partial (a : List (List K)) (b : List K) (h : a.length ≠ b.length) :
    columnConcat a (.vec b) = some (a.map (· ++ b)) := by
  simp [columnConcat, h]

/-- A vector of at least two entries is not appended to the rows when its length happens to be the number of rows: every row gets one
entry of it instead of all of them. -/
theorem C302_vector_refuted (a : List (List K)) (b : List K) (h : a.length = b.length) (h2 : 2 ≤ b.length) :
    ∃ r, columnConcat a (.vec b) = some r ∧ r ≠ a.map (· ++ b) ∧
      ∀ (i : ℕ) row x, a[i]? = some row → b[i]? = some x → r[i]? = some (row ++ [x]) := by
  refine ⟨List.zipWith (fun r x => r ++ [x]) a b, by simp [columnConcat, h], ?_, ?_⟩
  · intro hc
    have ha : 0 < a.length := by omega
    have hb : 0 < b.length := by omega
    have := congrArg (fun l => (l[0]?).map List.length) hc
    simp [List.getElem?_zipWith, List.getElem?_eq_getElem ha, List.getElem?_eq_getElem hb] at this
    omega
  · intro i row x h1 h2
    rw [List.getElem?_zipWith, h1, h2]

end

example : columnConcat [[1, 2], [3, 4], [5, 6]] (.vec [7, 8]) = some [[1, 2, 7, 8], [3, 4, 7, 8], [5, 6, 7, 8]] ∧
    columnConcat [[1, 2], [3, 4]] (.vec [7, 8]) = some [[1, 2, 7], [3, 4, 8]] := by decide

end Verif.Rtn
