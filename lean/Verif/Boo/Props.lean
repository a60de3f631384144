import Verif.Boo.Model
import Mathlib.Tactic.Ring
import Mathlib.Tactic.Linarith
import Mathlib.Tactic.FieldSimp
import Mathlib.Tactic.LinearCombination
import Mathlib.Tactic.Positivity
import Mathlib.Tactic.SplitIfs
import Mathlib.Data.List.Chain
import Mathlib.Algebra.Order.Field.Rat

/-! # Values within a tolerance (C216), choice of the segments (C217) -/

set_option linter.unusedSectionVars false

namespace Verif.Boo

variable {K : Type} [Field K] [LinearOrder K] [IsStrictOrderedRing K]

/-! ### Sorting -/

/-- `np.sort`. -/
abbrev sorted (l : List K) : List K := l.insertionSort (· ≤ ·)

theorem sorted_pairwise (l : List K) : (sorted l).Pairwise (· ≤ ·) := List.pairwise_insertionSort (· ≤ ·) l

theorem sorted_perm (l : List K) : (sorted l).Perm l := List.perm_insertionSort (· ≤ ·) l

theorem sorted_unique (l m : List K) (h : l.Perm m) (hs : m.Pairwise (· ≤ ·)) : sorted l = m :=
  List.Perm.eq_of_pairwise' (sorted_pairwise l) hs ((sorted_perm l).trans h)

/-! ### Means -/

theorem sum_lt (c : K) (l : List K) (h : ∀ x ∈ l, x < c) : l.sum ≤ l.length * c ∧ (l ≠ [] → l.sum < l.length * c) := by
  induction l with
  | nil => simp
  | cons a l ih =>
    have ha := h a (by simp)
    have i := (ih fun x hx => h x (by simp [hx])).1
    simp only [List.sum_cons, List.length_cons]
    push_cast
    constructor
    · linarith
    · intro _; linarith

theorem sum_gt (c : K) (l : List K) (h : ∀ x ∈ l, c < x) : l.length * c ≤ l.sum ∧ (l ≠ [] → l.length * c < l.sum) := by
  induction l with
  | nil => simp
  | cons a l ih =>
    have ha := h a (by simp)
    have i := (ih fun x hx => h x (by simp [hx])).1
    simp only [List.sum_cons, List.length_cons]
    push_cast
    constructor
    · linarith
    · intro _; linarith

theorem length_pos' (l : List K) (hne : l ≠ []) : (0 : K) < l.length := by
  have := List.length_pos_iff.mpr hne
  exact_mod_cast this

theorem mean_lt (c : K) (l : List K) (hne : l ≠ []) (h : ∀ x ∈ l, x < c) : mean l < c := by
  unfold mean
  rw [div_lt_iff₀ (length_pos' l hne), mul_comm]
  exact (sum_lt c l h).2 hne

theorem lt_mean (c : K) (l : List K) (hne : l ≠ []) (h : ∀ x ∈ l, c < x) : c < mean l := by
  unfold mean
  rw [lt_div_iff₀ (length_pos' l hne), mul_comm]
  exact (sum_gt c l h).2 hne

theorem mean_le (c : K) (l : List K) (hne : l ≠ []) (h : ∀ x ∈ l, x ≤ c) : mean l ≤ c := by
  by_contra hc
  push Not at hc
  exact lt_irrefl _ (mean_lt (mean l) l hne fun x hx => lt_of_le_of_lt (h x hx) hc)

theorem le_mean (c : K) (l : List K) (hne : l ≠ []) (h : ∀ x ∈ l, c ≤ x) : c ≤ mean l := by
  by_contra hc
  push Not at hc
  exact lt_irrefl _ (lt_mean (mean l) l hne fun x hx => lt_of_lt_of_le hc (h x hx))

/-! ### The groups -/

/-- Specification: `gs` divides the sorted list into groups without a gap above `tol` inside a group, and with a gap above
`tol` between the members of two groups. -/
def Grouping (tol : K) (l : List K) (gs : List (List K)) : Prop :=
  gs.flatten = l ∧ (∀ g ∈ gs, g ≠ [] ∧ g.IsChain (fun a b => b ≤ a + tol)) ∧
    gs.Pairwise (fun g h => ∀ x ∈ g, ∀ y ∈ h, x + tol < y)

theorem groupLoop_spec (tol : K) (l : List K) : ∀ (cur : K) (g0 : List K), (cur :: l).Pairwise (· ≤ ·) →
    (∀ x ∈ g0, x ≤ cur) → (cur :: g0).reverse.IsChain (fun a b => b ≤ a + tol) →
    ∃ gs, Grouping tol ((cur :: g0).reverse ++ l) gs ∧ groupLoop tol cur (cur :: g0) l = gs.map mean := by
  induction l with
  | nil =>
    intro cur g0 _ _ hc
    exact ⟨[(cur :: g0).reverse], ⟨by simp, by simpa using hc, by simp⟩, rfl⟩
  | cons v vs ih =>
    intro cur g0 hp hg hc
    have hcv : cur ≤ v := (List.pairwise_cons.mp hp).1 v (by simp)
    have hpv : (v :: vs).Pairwise (· ≤ ·) := (List.pairwise_cons.mp hp).2
    unfold groupLoop
    by_cases h : |v - cur| ≤ tol
    · rw [if_pos h]
      have hle : v ≤ cur + tol := by
        rw [abs_of_nonneg (by linarith)] at h; linarith
      obtain ⟨gs, h1, h2⟩ := ih v (cur :: g0) hpv (by
        intro x hx
        rcases List.mem_cons.mp hx with e | e
        · rw [e]; exact hcv
        · exact le_trans (hg x e) hcv) (by
        rw [List.reverse_cons, List.isChain_append]
        refine ⟨hc, by simp, ?_⟩
        intro x hx y hy
        simp only [List.reverse_cons, List.getLast?_append, List.getLast?_singleton, Option.some_or, Option.mem_def,
          Option.some.injEq, List.head?_cons] at hx hy
        rw [← hx, ← hy]; exact hle)
      refine ⟨gs, ?_, h2⟩
      simpa using h1
    · rw [if_neg h]
      have hlt : cur + tol < v := by
        rw [abs_of_nonneg (by linarith), not_le] at h; linarith
      obtain ⟨gs, ⟨h1, h2, h3⟩, h4⟩ := ih v [] hpv (by simp) (by simp)
      refine ⟨(cur :: g0).reverse :: gs, ⟨?_, ?_, ?_⟩, by rw [h4]; rfl⟩
      · rw [List.flatten_cons, h1]; simp
      · intro g hgm
        rcases List.mem_cons.mp hgm with e | e
        · rw [e]; exact ⟨by simp, hc⟩
        · exact h2 g e
      · rw [List.pairwise_cons]
        refine ⟨?_, h3⟩
        intro g hgm x hx y hy
        have hx' : x ≤ cur := by
          rcases List.mem_cons.mp (List.mem_reverse.mp hx) with e | e
          · rw [e]
          · exact hg x e
        have hy' : v ≤ y := by
          have : y ∈ gs.flatten := List.mem_flatten.mpr ⟨g, hgm, hy⟩
          rw [h1] at this
          simp only [List.reverse_cons, List.reverse_nil, List.nil_append, List.singleton_append, List.mem_cons] at this
          rcases this with e | e
          · rw [e]
          · exact (List.pairwise_cons.mp hpv).1 y e
        linarith

/-- **C216.** The result is the list of the means of the groups; the array is rejected exactly when it is empty. -/
theorem C216_groups (tol : K) (arr : List K) :
    (arr = [] ↔ uniqueTol tol arr = none) ∧
    (arr ≠ [] → ∃ gs, Grouping tol (sorted arr) gs ∧ uniqueTol tol arr = some (gs.map mean)) := by
  unfold uniqueTol
  have hp := sorted_perm arr
  have hs := sorted_pairwise arr
  unfold sorted at hp hs ⊢
  cases h : arr.insertionSort (· ≤ ·) with
  | nil =>
    rw [h] at hp
    have : arr = [] := hp.symm.eq_nil
    exact ⟨by simp [this], fun hn => absurd this hn⟩
  | cons a rest =>
    rw [h] at hp hs
    have hne : arr ≠ [] := by
      intro e; rw [e] at hp; exact absurd hp.eq_nil (by simp)
    refine ⟨by simp [hne], fun _ => ?_⟩
    obtain ⟨gs, h1, h2⟩ := groupLoop_spec tol rest a [] hs (by simp) (by simp)
    exact ⟨gs, by simpa using h1, by dsimp only; rw [h2]⟩

theorem means_apart (tol : K) (l : List K) (gs : List (List K)) (h : Grouping tol l gs) :
    (gs.map mean).Pairwise (fun a b => a + tol < b) := by
  rw [List.pairwise_map]
  obtain ⟨-, h2, h3⟩ := h
  refine List.Pairwise.imp_of_mem ?_ h3
  intro g k hg hk hgk
  refine lt_mean _ _ (h2 k hk).1 fun y hy => ?_
  have := mean_lt (y - tol) g (h2 g hg).1 fun x hx => by linarith [hgk x hx y hy]
  linarith

/-- **C216.** The values returned are in order and more than the tolerance apart. -/
theorem C216_apart (tol : K) (arr res : List K) (h : uniqueTol tol arr = some res) : res.Pairwise (fun a b => a + tol < b) := by
  have hne : arr ≠ [] := by
    intro e
    rw [(C216_groups tol arr).1.mp e] at h; cases h
  obtain ⟨gs, h1, h2⟩ := (C216_groups tol arr).2 hne
  rw [h2] at h
  cases h
  exact means_apart tol _ gs h1

/-- **C216.** The order of the array does not matter. -/
theorem C216_order (tol : K) (arr arr' : List K) (h : arr.Perm arr') : uniqueTol tol arr = uniqueTol tol arr' := by
  have : sorted arr = sorted arr' := sorted_unique arr _ (h.trans (sorted_perm arr').symm) (sorted_pairwise arr')
  unfold sorted at this
  unfold uniqueTol
  rw [this]

theorem groupLoop_apart (tol : K) (h0 : 0 ≤ tol) (l : List K) : ∀ cur, (cur :: l).Pairwise (fun a b => a + tol < b) →
    groupLoop tol cur [cur] l = cur :: l := by
  have hm : ∀ a : K, mean [a] = a := fun a => by simp [mean]
  induction l with
  | nil => intro cur _; simp [groupLoop, hm]
  | cons v vs ih =>
    intro cur hp
    have h := (List.pairwise_cons.mp hp).1 v (by simp)
    unfold groupLoop
    rw [if_neg (by rw [abs_of_nonneg (by linarith), not_le]; linarith), ih v (List.pairwise_cons.mp hp).2]
    simp [hm]

/-- **C216.** An array whose values are more than the tolerance apart is returned sorted, so a second call changes
nothing. -/
theorem C216_idempotent (tol : K) (h0 : 0 ≤ tol) (arr res : List K) (h : uniqueTol tol arr = some res) :
    uniqueTol tol res = some res := by
  have hp := C216_apart tol arr res h
  have hs : res.Pairwise (· ≤ ·) := hp.imp fun hab => by linarith
  have e : res.insertionSort (· ≤ ·) = res := sorted_unique res res (List.Perm.refl _) hs
  have hne : res ≠ [] := by
    have hne' : arr ≠ [] := by
      intro e
      rw [(C216_groups tol arr).1.mp e] at h; cases h
    obtain ⟨gs, h1, h2⟩ := (C216_groups tol arr).2 hne'
    rw [h2] at h
    cases h
    intro c
    have hg : gs = [] := by simpa using c
    rw [hg] at h1
    have : sorted arr = [] := h1.1.symm
    exact hne' ((sorted_perm arr).symm.trans (by rw [this])).eq_nil
  unfold uniqueTol
  rw [e]
  cases res with
  | nil => exact absurd rfl hne
  | cons a l => dsimp only; rw [groupLoop_apart tol h0 l a hp]

/-- The spread of a chain. -/
theorem chain_spread (tol : K) (h0 : 0 ≤ tol) (l : List K) : ∀ a, (a :: l).IsChain (fun a b => b ≤ a + tol) →
    ∀ x ∈ a :: l, x ≤ a + l.length * tol := by
  induction l with
  | nil => intro a _ x hx; simp at hx; simp [hx]
  | cons b l ih =>
    intro a hc x hx
    rw [List.isChain_cons_cons] at hc
    rcases List.mem_cons.mp hx with e | e
    · rw [e]
      have : (0 : K) ≤ (b :: l).length * tol := by positivity
      linarith
    · have := ih b hc.2 x e
      simp only [List.length_cons]
      push_cast
      linarith [hc.1]

/-- **C216, the part that holds.** Every value of the array is within the tolerance times its length of a returned value. -/
theorem C216_near_partial (tol : K) (h0 : 0 ≤ tol) (arr res : List K) (h : uniqueTol tol arr = some res) :
    ∀ x ∈ arr, ∃ y ∈ res, |x - y| ≤ (arr.length - 1 : ℕ) * tol := by
  intro x hx
  have hne : arr ≠ [] := by intro e; rw [e] at hx; cases hx
  obtain ⟨gs, ⟨h1, h2, h3⟩, h4⟩ := (C216_groups tol arr).2 hne
  rw [h4] at h
  cases h
  have hx' : x ∈ gs.flatten := by rw [h1]; exact (sorted_perm arr).symm.subset hx
  obtain ⟨g, hg, hxg⟩ := List.mem_flatten.mp hx'
  refine ⟨mean g, List.mem_map.mpr ⟨g, hg, rfl⟩, ?_⟩
  obtain ⟨hgn, hgc⟩ := h2 g hg
  have hsub : g.Sublist (sorted arr) := by
    rw [← h1]; exact List.sublist_flatten_of_mem hg
  have hlen : g.length ≤ arr.length := by
    have := hsub.length_le
    rwa [(sorted_perm arr).length_eq] at this
  have hgs : g.Pairwise (· ≤ ·) := (sorted_pairwise arr).sublist hsub
  cases g with
  | nil => exact absurd rfl hgn
  | cons a l =>
    have hup := chain_spread tol h0 l a hgc
    have hlo : ∀ z ∈ a :: l, a ≤ z := by
      intro z hz
      rcases List.mem_cons.mp hz with e | e
      · rw [e]
      · exact (List.pairwise_cons.mp hgs).1 z e
    have m1 := mean_le _ _ hgn hup
    have m2 := le_mean _ _ hgn hlo
    have x1 := hup x hxg
    have x2 := hlo x hxg
    have hl : (l.length : K) * tol ≤ (arr.length - 1 : ℕ) * tol := by
      refine mul_le_mul_of_nonneg_right ?_ h0
      have : l.length ≤ arr.length - 1 := by
        simp only [List.length_cons] at hlen
        omega
      exact_mod_cast this
    rw [abs_le]
    constructor <;> linarith

theorem groupLoop_chain (tol : K) (l : List K) : ∀ cur grp, (cur :: l).IsChain (fun a b => |b - a| ≤ tol) →
    groupLoop tol cur grp l = [mean (grp.reverse ++ l)] := by
  induction l with
  | nil => intro cur grp _; simp [groupLoop]
  | cons v vs ih =>
    intro cur grp hc
    rw [List.isChain_cons_cons] at hc
    unfold groupLoop
    rw [if_pos hc.1, ih v (v :: grp) hc.2]
    simp

theorem sum_steps (tol : K) (n : Nat) : ((List.range n).map fun i : ℕ => (i : K) * tol).sum = n * (n - 1) / 2 * tol := by
  induction n with
  | zero => simp
  | succ n ih =>
    rw [List.range_succ, List.map_append, List.sum_append, ih]
    simp only [List.map_cons, List.map_nil, List.sum_cons, List.sum_nil]
    push_cast
    ring

/-- **C216, refuted.** "Values within the tolerance are one value" is not what the groups are: the values 0, tol, 2·tol, …,
n·tol become the single value n·tol/2, as far as one likes from the first. -/
theorem C216_chain_refuted (tol : K) (h0 : 0 < tol) (n : Nat) :
    uniqueTol tol ((List.range (n + 1)).map fun i : ℕ => (i : K) * tol) = some [n * tol / 2] := by
  have hs : ((List.range (n + 1)).map fun i : ℕ => (i : K) * tol).Pairwise (· ≤ ·) := by
    rw [List.pairwise_map]
    refine List.Pairwise.imp ?_ (List.pairwise_lt_range (n := n + 1))
    intro a b hab
    have : (a : K) ≤ b := by exact_mod_cast hab.le
    exact mul_le_mul_of_nonneg_right this h0.le
  have hc : ((List.range (n + 1)).map fun i : ℕ => (i : K) * tol).IsChain (fun a b => |b - a| ≤ tol) := by
    rw [List.isChain_map]
    have : (List.range (n + 1)).IsChain (fun a b => b = a + 1) := by
      rw [List.isChain_iff_getElem]
      intro i hi
      simp
    refine this.imp ?_
    intro a b hab
    rw [hab]
    push_cast
    rw [show ((a : K) + 1) * tol - a * tol = tol by ring, abs_of_pos h0]
  have e := sorted_unique _ _ (List.Perm.refl _) hs
  have hsum := sum_steps tol (n + 1)
  have hlen : ((List.range (n + 1)).map fun i : ℕ => (i : K) * tol).length = n + 1 := by simp
  unfold sorted at e
  unfold uniqueTol
  rw [e]
  generalize ((List.range (n + 1)).map fun i : ℕ => (i : K) * tol) = l at *
  cases l with
  | nil => simp at hlen
  | cons a rest =>
    dsimp only
    rw [groupLoop_chain tol rest a [a] hc]
    simp only [List.reverse_cons, List.reverse_nil, List.nil_append, List.singleton_append]
    unfold mean
    rw [hsum, hlen]
    have : (0 : K) < (n + 1 : ℕ) := by exact_mod_cast Nat.succ_pos n
    push_cast at this ⊢
    congr 2
    field_simp
    ring

/-! ### The choice of the segments -/

/-- Specification: a segment is inside when the ray from its middle crosses the other curve an odd number of times. -/
def inside {S : Type} (tol : K) (rays : S → List K) (s : S) : Bool := crossings tol (rays s) % 2 == 1

theorem loop_eq {S : Type} (keep : Bool → Option Bool) (f : Bool → Bool) (hk : ∀ b, keep b = some (f b)) (rays : S → List K)
    (tol : K) (l : List S) : ∀ acc, loop keep rays tol l acc = some (acc ++ l.filter fun s => f (inside tol rays s)) := by
  induction l with
  | nil => intro acc; simp [loop]
  | cons s l ih =>
    intro acc
    unfold loop
    rw [hk]
    change (match some (f (inside tol rays s)) with | none => none | some true => loop keep rays tol l (acc ++ [s]) | some false => loop keep rays tol l acc) = _
    cases h : f (inside tol rays s) with
    | true => dsimp only; rw [ih, List.filter_cons_of_pos (p := fun s => f (inside tol rays s)) h]; simp
    | false => dsimp only; rw [ih, List.filter_cons_of_neg (by simp [h])]

/-- **C217.** For curves with a common point: the union is made of the segments of each curve outside the other, the
intersection of those inside, the difference of the segments of the first outside and of the second inside; in order. -/
theorem C217_select {S : Type} (tol : K) (pairs : List (K × K)) (hp : pairs ≠ []) (s1 s2 : List S) (r1 r2 : S → List K) :
    boolOp tol pairs s1 s2 r1 r2 0 = some (s1.filter (fun s => !inside tol r1 s) ++ s2.filter (fun s => !inside tol r2 s)) ∧
    boolOp tol pairs s1 s2 r1 r2 1 = some (s1.filter (fun s => inside tol r1 s) ++ s2.filter (fun s => inside tol r2 s)) ∧
    boolOp tol pairs s1 s2 r1 r2 2 = some (s1.filter (fun s => !inside tol r1 s) ++ s2.filter (fun s => inside tol r2 s)) := by
  cases pairs with
  | nil => exact absurd rfl hp
  | cons a l =>
    unfold boolOp
    dsimp only
    refine ⟨?_, ?_, ?_⟩
    · rw [loop_eq (keepFirst 0) (fun b => !b) (by decide)]
      simp only [Option.bind_some, List.nil_append]
      rw [loop_eq (keepSecond 0) (fun b => !b) (by decide)]
    · rw [loop_eq (keepFirst 1) (fun b => b) (by decide)]
      simp only [Option.bind_some, List.nil_append]
      rw [loop_eq (keepSecond 1) (fun b => b) (by decide)]
    · rw [loop_eq (keepFirst 2) (fun b => !b) (by decide)]
      simp only [Option.bind_some, List.nil_append]
      rw [loop_eq (keepSecond 2) (fun b => b) (by decide)]

/-- **C217.** Union and intersection together have every segment of both curves exactly once; so have the difference of the
first and the second and the difference of the second and the first. -/
theorem C217_partition {S : Type} (tol : K) (pairs pairs' : List (K × K)) (hp : pairs ≠ []) (hp' : pairs' ≠ []) (s1 s2 : List S)
    (r1 r2 : S → List K) :
    (∃ u i, boolOp tol pairs s1 s2 r1 r2 0 = some u ∧ boolOp tol pairs s1 s2 r1 r2 1 = some i ∧ (u ++ i).Perm (s1 ++ s2)) ∧
    (∃ u i, boolOp tol pairs s1 s2 r1 r2 2 = some u ∧ boolOp tol pairs' s2 s1 r2 r1 2 = some i ∧ (u ++ i).Perm (s1 ++ s2)) := by
  obtain ⟨h0, h1, h2⟩ := C217_select tol pairs hp s1 s2 r1 r2
  obtain ⟨-, -, h3⟩ := C217_select tol pairs' hp' s2 s1 r2 r1
  have key : ∀ (p : S → Bool) (l : List S), (l.filter (fun s => !p s) ++ l.filter p).Perm l := fun p l =>
    List.perm_append_comm.trans (List.filter_append_perm p l)
  have swap : ∀ a b c d : List S, ((a ++ b) ++ (c ++ d)).Perm ((a ++ c) ++ (b ++ d)) := fun a b c d => by
    rw [List.append_assoc, List.append_assoc]
    refine List.Perm.append_left a ?_
    rw [← List.append_assoc, ← List.append_assoc]
    exact List.Perm.append_right d List.perm_append_comm
  refine ⟨⟨_, _, h0, h1, ?_⟩, ⟨_, _, h2, h3, ?_⟩⟩
  · exact (swap _ _ _ _).trans ((key _ s1).append (key _ s2))
  · refine (List.Perm.append_left _ List.perm_append_comm).trans ((swap _ _ _ _).trans ((key _ s1).append ?_))
    exact List.perm_append_comm.trans (key _ s2)

/-- **C217.** An unknown operation raises as soon as there is a segment. -/
theorem C217_unknown {S : Type} (tol : K) (pairs : List (K × K)) (s : S) (s1 s2 : List S) (r1 r2 : S → List K) (op : Int)
    (h : op ≠ 0 ∧ op ≠ 1 ∧ op ≠ 2) : boolOp tol pairs (s :: s1) s2 r1 r2 op = none := by
  have hk : ∀ b, keepFirst op b = none := by
    intro b; unfold keepFirst; simp [h.1, h.2.1, h.2.2]
  cases pairs with
  | nil => rfl
  | cons a l => unfold boolOp loop; rw [hk]; rfl

/-- **C217, refuted.** Curves without a common point (apart from each other, or one inside the other) have no result at all:
the call raises whatever the operation. -/
theorem C217_disjoint_refuted {S : Type} (tol : K) (s1 s2 : List S) (r1 r2 : S → List K) (op : Int) :
    boolOp tol [] s1 s2 r1 r2 op = none := rfl

/-- The count for crossings more than the tolerance apart is their number. -/
theorem C217_count (tol : K) (h0 : 0 ≤ tol) (rt : List K) (h : rt.Pairwise (fun a b => tol < |a - b|)) :
    crossings tol rt = rt.length := by
  cases hrt : rt with
  | nil => rfl
  | cons a l =>
    rw [← hrt]
    have hne : rt ≠ [] := by rw [hrt]; simp
    have hp := sorted_perm rt
    have h1 : (sorted rt).Pairwise (fun a b => tol < |a - b|) :=
      (hp.pairwise_iff (fun {a b} hab => by rwa [abs_sub_comm])).mpr h
    have h2 : (sorted rt).Pairwise (fun a b => a + tol < b) := by
      refine List.Pairwise.imp₂ ?_ (sorted_pairwise rt) h1
      intro a b hab hl
      rw [abs_sub_comm, abs_of_nonneg (by linarith)] at hl
      linarith
    have key : uniqueTol tol rt = some (sorted rt) := by
      unfold uniqueTol
      unfold sorted at h2 hp ⊢
      cases hm : rt.insertionSort (· ≤ ·) with
      | nil => rw [hm] at hp; exact absurd hp.symm.eq_nil hne
      | cons b m =>
        rw [hm] at h2
        dsimp only
        rw [groupLoop_apart tol h0 m b h2]
    unfold crossings
    rw [key]
    rw [hrt] at hp ⊢
    exact hp.length_eq

/-! ### Examples -/

example : uniqueTol (1/10 : ℚ) [3, 1, 61/20, 1, 2] = some [1, 2, 121/40] := by decide +kernel
example : uniqueTol (1 : ℚ) [0, 1, 2, 3, 4] = some [2] := by decide +kernel
example : boolOp (1/100 : ℚ) [(0, 0)] ["a", "b"] ["c"] (fun s => if s = "a" then [1] else [1, 2]) (fun _ => [5]) 2 = some ["b", "c"] := by
  decide +kernel

end Verif.Boo
