import Verif.Csx.Model
import Mathlib.Algebra.Order.Floor.Ring
import Mathlib.Algebra.Order.Archimedean.Basic
import Mathlib.Data.Fintype.Card
import Mathlib.Data.Finset.Card
import Mathlib.Data.Int.Interval
import Mathlib.Tactic.Linarith
import Mathlib.Tactic.Ring
import Mathlib.Tactic.NormNum
import Mathlib.Tactic.LinearCombination

/-! # C253, C254: what `nurbs_csx` reports, and that it ends -/

set_option linter.unusedSectionVars false

namespace Verif.Csx

open Verif.Mol (V)
open Verif.Ccx (dist2)

variable {K : Type} [Field K] [LinearOrder K] [IsStrictOrderedRing K] {C S : Type}

/-- `x` lies in the interval `i`. -/
def In (i : K × K) (x : K) : Prop := i.1 ≤ x ∧ x ≤ i.2

/-- `c'` is a piece of `c`. -/
def SubC (E : Env K C S) (c' c : C) : Prop :=
  (E.cint c).1 ≤ (E.cint c').1 ∧ (E.cint c').2 ≤ (E.cint c).2 ∧ ∀ x, In (E.cint c') x → E.cev c' x = E.cev c x

/-- `s'` is a piece of `s`. -/
def SubS (E : Env K C S) (s' s : S) : Prop :=
  (E.sint s).1.1 ≤ (E.sint s').1.1 ∧ (E.sint s').1.2 ≤ (E.sint s).1.2 ∧
  (E.sint s).2.1 ≤ (E.sint s').2.1 ∧ (E.sint s').2.2 ≤ (E.sint s).2.2 ∧
  ∀ u v, In (E.sint s').1 u → In (E.sint s').2 v → E.sev s' u v = E.sev s u v

/-- What splitting does (C56 for curves, C65 for surfaces): the pieces are pieces, and they are cut at the parameter given.  `okC`
and `okS` are the curves and surfaces for which this is so. -/
structure Spec (E : Env K C S) (okC : C → Prop) (okS : S → Prop) : Prop where
  split : ∀ tol c t c1 c2, okC c → E.split tol c t = some (c1, c2) →
    okC c1 ∧ okC c2 ∧ SubC E c1 c ∧ SubC E c2 c ∧ E.cint c1 = ((E.cint c).1, t) ∧ E.cint c2 = (t, (E.cint c).2)
  subdiv : ∀ tol s u v q, okS s → E.subdiv tol s u v = some q →
    (okS q.1 ∧ okS q.2.1 ∧ okS q.2.2.1 ∧ okS q.2.2.2) ∧
    (SubS E q.1 s ∧ SubS E q.2.1 s ∧ SubS E q.2.2.1 s ∧ SubS E q.2.2.2 s) ∧
    E.sint q.1 = (((E.sint s).1.1, u), ((E.sint s).2.1, v)) ∧ E.sint q.2.1 = (((E.sint s).1.1, u), (v, (E.sint s).2.2)) ∧
    E.sint q.2.2.1 = ((u, (E.sint s).1.2), ((E.sint s).2.1, v)) ∧ E.sint q.2.2.2 = ((u, (E.sint s).1.2), (v, (E.sint s).2.2))
  degen : ∀ c' c s' s t u v, SubC E c' c → SubS E s' s → In (E.cint c') t → In (E.sint s').1 u → In (E.sint s').2 v →
    E.degen c' s' (t, u, v) = E.degen c s (t, u, v)

theorem SubC.refl (E : Env K C S) (c : C) : SubC E c c := ⟨le_rfl, le_rfl, fun _ _ => rfl⟩

theorem SubC.trans {E : Env K C S} {a b c : C} (h : SubC E a b) (g : SubC E b c) : SubC E a c :=
  ⟨g.1.trans h.1, h.2.1.trans g.2.1, fun x hx => (h.2.2 x hx).trans (g.2.2 x ⟨h.1.trans hx.1, hx.2.trans h.2.1⟩)⟩

theorem SubS.refl (E : Env K C S) (s : S) : SubS E s s := ⟨le_rfl, le_rfl, le_rfl, le_rfl, fun _ _ _ _ => rfl⟩

theorem SubS.trans {E : Env K C S} {a b c : S} (h : SubS E a b) (g : SubS E b c) : SubS E a c :=
  ⟨g.1.trans h.1, h.2.1.trans g.2.1, g.2.2.1.trans h.2.2.1, h.2.2.2.1.trans g.2.2.2.1, fun u v hu hv =>
    (h.2.2.2.2 u v hu hv).trans (g.2.2.2.2 u v ⟨h.1.trans hu.1, hu.2.trans h.2.1⟩ ⟨h.2.2.1.trans hv.1, hv.2.trans h.2.2.2.1⟩)⟩

/-- What a reported entry says about the curve and the surface. -/
structure Good (E : Env K C S) (tol : K) (c : C) (s : S) (h : Hit K) : Prop where
  t : In (E.cint c) h.t
  u : In (E.sint s).1 h.u
  v : In (E.sint s).2 h.v
  pt : h.pt = E.cev c h.t
  close : dist2 (E.cev c h.t) (E.sev s h.u h.v) ≤ tol ^ 2
  deg : h.deg = E.degen c s (h.t, h.u, h.v)

theorem Good.mono {E : Env K C S} {okC okS} (hE : Spec E okC okS) {tol : K} {c c' : C} {s s' : S} {h : Hit K}
    (g : Good E tol c' s' h) (hc : SubC E c' c) (hs : SubS E s' s) : Good E tol c s h where
  t := ⟨hc.1.trans g.t.1, g.t.2.trans hc.2.1⟩
  u := ⟨hs.1.trans g.u.1, g.u.2.trans hs.2.1⟩
  v := ⟨hs.2.2.1.trans g.v.1, g.v.2.trans hs.2.2.2.1⟩
  pt := g.pt.trans (hc.2.2 _ g.t)
  close := by rw [← hc.2.2 _ g.t, ← hs.2.2.2.2 _ _ g.u g.v]; exact g.close
  deg := by rw [g.deg]; exact hE.degen _ _ _ _ _ _ _ hc hs g.t g.u g.v

theorem findNew_some {E : Env K C S} {tol : K} {hits : List (Hit K)} {c : C} {s : S} {p : V K} {t u v : K}
    (h : findNew E tol hits c s = some (p, t, u, v)) :
    E.newton c s = some (t, u, v) ∧ In (E.cint c) t ∧ In (E.sint s).1 u ∧ In (E.sint s).2 v ∧ p = E.cev c t ∧
      dist2 (E.cev c t) (E.sev s u v) ≤ tol ^ 2 ∧ ∀ h ∈ hits, near tol h.pt p = false := by
  unfold findNew at h
  cases e : E.newton c s with
  | none => simp [e] at h
  | some x =>
    obtain ⟨t', u', v'⟩ := x
    simp only [e] at h
    by_cases h1 : validParam E c s t' u' v' = true
    · by_cases h2 : dist2 (E.cev c t') (E.sev s u' v') ≤ tol ^ 2
      · by_cases h3 : (hits.any fun h => near tol h.pt (E.cev c t')) = true
        · simp [h1, h2, h3] at h
        · simp only [h1, h2, h3, if_true] at h
          simp only [Bool.false_eq_true, if_false, Option.some.injEq, Prod.mk.injEq] at h
          obtain ⟨rfl, rfl, rfl, rfl⟩ := h
          simp only [validParam, Bool.and_eq_true, decide_eq_true_eq] at h1
          refine ⟨rfl, h1.1.1, h1.1.2, h1.2, rfl, h2, fun x hx => ?_⟩
          simp only [List.any_eq_true, not_exists, not_and, Bool.not_eq_true] at h3
          exact h3 x hx
      · simp [h1, h2] at h
    · simp [h1] at h

/-- Every call in a row keeps a relation between the list before and after it. -/
theorem callAll_ind {f : List (Hit K) → C → S → Option (Option (List (Hit K)))} {P : List (Hit K) → List (Hit K) → Prop}
    (hrefl : ∀ h, P h h) (htr : ∀ a b c, P a b → P b c → P a c) :
    ∀ (l : List (C × S)) (h r : List (Hit K)), (∀ p ∈ l, ∀ h r, f h p.1 p.2 = some (some r) → P h r) →
      callAll f l h = some (some r) → P h r := by
  intro l
  induction l with
  | nil => intro h r _ e; simp only [callAll, Option.some.injEq] at e; subst e; exact hrefl _
  | cons p l ih =>
    intro h r hp e
    unfold callAll at e
    cases e1 : f h p.1 p.2 with
    | none => simp [e1] at e
    | some o =>
      cases o with
      | none => simp [e1] at e
      | some h' =>
        simp only [e1] at e
        exact htr _ _ _ (hp p (by simp) _ _ e1) (ih h' r (fun q hq => hp q (by simp [hq])) e)

/-- One call of the intersector: what it adds. -/
structure Adds (E : Env K C S) (tol : K) (c : C) (s : S) (h r : List (Hit K)) : Prop where
  ext : ∃ new, r = h ++ new ∧ ∀ x ∈ new, Good E tol c s x

theorem Adds.refl (E : Env K C S) (tol : K) (c : C) (s : S) (h : List (Hit K)) : Adds E tol c s h h := ⟨[], by simp, by simp⟩

theorem Adds.trans {E : Env K C S} {tol : K} {c : C} {s : S} {a b d : List (Hit K)} (x : Adds E tol c s a b) (y : Adds E tol c s b d) :
    Adds E tol c s a d := by
  obtain ⟨n1, rfl, g1⟩ := x.ext
  obtain ⟨n2, rfl, g2⟩ := y.ext
  refine ⟨n1 ++ n2, by simp, fun z hz => ?_⟩
  rcases List.mem_append.1 hz with h | h
  · exact g1 z h
  · exact g2 z h

theorem pairs_ok {E : Env K C S} {okC okS} (hE : Spec E okC okS) {tl tl' : K} {c : C} {s : S} (hc : okC c) (hs : okS s) {t u v : K}
    {c1 c2 : C} {q : S × S × S × S} (h1 : E.split tl c t = some (c1, c2)) (h2 : E.subdiv tl' s u v = some q) :
    ∀ p ∈ pairs c1 c2 q, okC p.1 ∧ okS p.2 ∧ SubC E p.1 c ∧ SubS E p.2 s := by
  have a := hE.split _ _ _ _ _ hc h1
  have b := hE.subdiv _ _ _ _ _ hs h2
  intro p hp
  simp only [pairs, List.mem_cons, List.not_mem_nil, or_false] at hp
  rcases hp with rfl | rfl | rfl | rfl | rfl | rfl | rfl | rfl
  · exact ⟨a.1, b.1.1, a.2.2.1, b.2.1.1⟩
  · exact ⟨a.1, b.1.2.1, a.2.2.1, b.2.1.2.1⟩
  · exact ⟨a.1, b.1.2.2.1, a.2.2.1, b.2.1.2.2.1⟩
  · exact ⟨a.1, b.1.2.2.2, a.2.2.1, b.2.1.2.2.2⟩
  · exact ⟨a.2.1, b.1.1, a.2.2.2.1, b.2.1.1⟩
  · exact ⟨a.2.1, b.1.2.1, a.2.2.2.1, b.2.1.2.1⟩
  · exact ⟨a.2.1, b.1.2.2.1, a.2.2.2.1, b.2.1.2.2.1⟩
  · exact ⟨a.2.1, b.1.2.2.2, a.2.2.2.1, b.2.1.2.2.2⟩

theorem intersect_adds {E : Env K C S} {okC okS} (hE : Spec E okC okS) {tol ptol stol : K} :
    ∀ (k : Nat) (hits r : List (Hit K)) (c : C) (s : S), okC c → okS s → intersect E tol ptol stol k hits c s = some (some r) →
      Adds E tol c s hits r := by
  intro k
  induction k with
  | zero => intro hits r c s _ _ h; simp [intersect] at h
  | succ k ih =>
    intro hits r c s hc hs h
    have key : ∀ (tl tl' t u v : K) (c1 c2 : C) (q : S × S × S × S) (hh : List (Hit K)), E.split tl c t = some (c1, c2) →
        E.subdiv tl' s u v = some q → callAll (intersect E tol ptol stol k) (pairs c1 c2 q) hh = some (some r) →
        Adds E tol c s hh r := by
      intro tl tl' t u v c1 c2 q hh h1 h2 h3
      refine callAll_ind (P := Adds E tol c s) (Adds.refl E tol c s) (fun a b d => Adds.trans) _ _ _ (fun p hp h r e => ?_) h3
      obtain ⟨o1, o2, o3, o4⟩ := pairs_ok hE hc hs h1 h2 p hp
      obtain ⟨n, rfl, g⟩ := (ih h r p.1 p.2 o1 o2 e).ext
      exact ⟨n, rfl, fun x hx => (g x hx).mono hE o3 o4⟩
    unfold intersect at h
    by_cases h0 : E.sep c s = true
    · simp only [h0, if_true, Option.some.injEq] at h; subst h; exact Adds.refl ..
    simp only [h0, Bool.false_eq_true, if_false] at h
    cases e : findNew E tol hits c s with
    | none =>
      simp only [e] at h
      cases e1 : E.split stol c (((E.cint c).1 + (E.cint c).2) * (1 / 2)) with
      | none => simp only [e1, Option.some.injEq, reduceCtorEq] at h
      | some cc =>
        obtain ⟨c1, c2⟩ := cc
        simp only [e1] at h
        by_cases h2 : atEdge E ptol s (((E.sint s).1.1 + (E.sint s).1.2) * (1 / 2)) (((E.sint s).2.1 + (E.sint s).2.2) * (1 / 2)) = true
        · simp only [h2, if_true, Option.some.injEq] at h; subst h; exact Adds.refl ..
        simp only [h2, Bool.false_eq_true, if_false] at h
        cases e2 : E.subdiv ptol s (((E.sint s).1.1 + (E.sint s).1.2) * (1 / 2)) (((E.sint s).2.1 + (E.sint s).2.2) * (1 / 2)) with
        | none => simp only [e2, Option.some.injEq, reduceCtorEq] at h
        | some q => simp only [e2] at h; exact key _ _ _ _ _ _ _ _ _ e1 e2 h
    | some x =>
      obtain ⟨p, t, u, v⟩ := x
      simp only [e] at h
      obtain ⟨_, ht, hu, hv, rfl, hd, _⟩ := findNew_some e
      have add : Adds E tol c s hits (hits ++ [⟨E.degen c s (t, u, v), E.cev c t, t, u, v⟩]) :=
        ⟨_, rfl, fun x hx => by
          simp only [List.mem_singleton] at hx
          subst hx
          exact ⟨ht, hu, hv, rfl, hd, rfl⟩⟩
      by_cases h2 : atEdge E ptol s u v = true
      · simp only [h2, if_true, Option.some.injEq] at h; subst h; exact add
      simp only [h2, Bool.false_eq_true, if_false] at h
      by_cases h3 : E.sph c s (E.cev c t) = true
      · simp only [h3, if_true, Option.some.injEq] at h; subst h; exact add
      simp only [h3, Bool.false_eq_true, if_false] at h
      cases e1 : E.split ptol c t with
      | none => simp only [e1, Option.some.injEq, reduceCtorEq] at h
      | some cc =>
        obtain ⟨c1, c2⟩ := cc
        simp only [e1] at h
        cases e2 : E.subdiv ptol s u v with
        | none => simp only [e2, Option.some.injEq, reduceCtorEq] at h
        | some q => simp only [e2] at h; exact add.trans (key _ _ _ _ _ _ _ _ _ e1 e2 h)

/-- **C253**: whatever `nurbs_csx` reports is an intersection: the parameters lie in the domains of the curve and of the surface,
the point is the point of the *whole* curve at `t`, it is within `tol` of the point of the whole surface at `(u, v)`, and the flag
is the one of these parameters. -/
theorem C253_sound {E : Env K C S} {okC okS} (hE : Spec E okC okS) {tol ptol stol : K} {fuel : Nat} {c : C} {s : S} (hc : okC c)
    (hs : okS s) {r : List (Hit K)} (h : nurbsCsx E tol ptol stol fuel c s = some (some r)) : ∀ x ∈ r, Good E tol c s x := by
  obtain ⟨n, e, g⟩ := (intersect_adds hE fuel [] r c s hc hs h).ext
  simp only [List.nil_append] at e
  subst e
  exact g

theorem near_symm (tol : K) (p q : V K) : near tol p q = near tol q p := by
  unfold near
  rw [abs_sub_comm p.x, abs_sub_comm p.y, abs_sub_comm p.z]

theorem intersect_pairwise {E : Env K C S} {tol ptol stol : K} :
    ∀ (k : Nat) (hits r : List (Hit K)) (c : C) (s : S), intersect E tol ptol stol k hits c s = some (some r) →
      hits.Pairwise (fun a b => near tol a.pt b.pt = false) → r.Pairwise (fun a b => near tol a.pt b.pt = false) := by
  intro k
  induction k with
  | zero => intro hits r c s h; simp [intersect] at h
  | succ k ih =>
    intro hits r c s h hp
    have key : ∀ (l : List (C × S)) (hh : List (Hit K)), callAll (intersect E tol ptol stol k) l hh = some (some r) →
        hh.Pairwise (fun a b => near tol a.pt b.pt = false) → r.Pairwise (fun a b => near tol a.pt b.pt = false) := by
      intro l hh h3
      exact callAll_ind (P := fun a b => a.Pairwise (fun a b : Hit K => near tol a.pt b.pt = false) → b.Pairwise (fun a b : Hit K => near tol a.pt b.pt = false))
        (fun _ h => h) (fun a b d x y h => y (x h)) _ _ _ (fun p _ h r e => ih h r p.1 p.2 e) h3
    unfold intersect at h
    by_cases h0 : E.sep c s = true
    · simp only [h0, if_true, Option.some.injEq] at h; subst h; exact hp
    simp only [h0, Bool.false_eq_true, if_false] at h
    cases e : findNew E tol hits c s with
    | none =>
      simp only [e] at h
      cases e1 : E.split stol c (((E.cint c).1 + (E.cint c).2) * (1 / 2)) with
      | none => simp only [e1, Option.some.injEq, reduceCtorEq] at h
      | some cc =>
        simp only [e1] at h
        by_cases h2 : atEdge E ptol s (((E.sint s).1.1 + (E.sint s).1.2) * (1 / 2)) (((E.sint s).2.1 + (E.sint s).2.2) * (1 / 2)) = true
        · simp only [h2, if_true, Option.some.injEq] at h; subst h; exact hp
        simp only [h2, Bool.false_eq_true, if_false] at h
        cases e2 : E.subdiv ptol s (((E.sint s).1.1 + (E.sint s).1.2) * (1 / 2)) (((E.sint s).2.1 + (E.sint s).2.2) * (1 / 2)) with
        | none => simp only [e2, Option.some.injEq, reduceCtorEq] at h
        | some q => simp only [e2] at h; exact key _ _ h hp
    | some x =>
      obtain ⟨p, t, u, v⟩ := x
      simp only [e] at h
      obtain ⟨_, ht, hu, hv, rfl, hd, hn⟩ := findNew_some e
      have add : (hits ++ [(⟨E.degen c s (t, u, v), E.cev c t, t, u, v⟩ : Hit K)]).Pairwise (fun a b => near tol a.pt b.pt = false) := by
        rw [List.pairwise_append]
        refine ⟨hp, by simp, fun a ha b hb => ?_⟩
        simp only [List.mem_singleton] at hb
        subst hb
        exact hn a ha
      by_cases h2 : atEdge E ptol s u v = true
      · simp only [h2, if_true, Option.some.injEq] at h; subst h; exact add
      simp only [h2, Bool.false_eq_true, if_false] at h
      by_cases h3 : E.sph c s (E.cev c t) = true
      · simp only [h3, if_true, Option.some.injEq] at h; subst h; exact add
      simp only [h3, Bool.false_eq_true, if_false] at h
      cases e1 : E.split ptol c t with
      | none => simp only [e1, Option.some.injEq, reduceCtorEq] at h
      | some cc =>
        simp only [e1] at h
        cases e2 : E.subdiv ptol s u v with
        | none => simp only [e2, Option.some.injEq, reduceCtorEq] at h
        | some q => simp only [e2] at h; exact key _ _ h add

/-- **C253**: no point is reported twice: two entries differ by at least `tol` in some coordinate. -/
theorem C253_distinct {E : Env K C S} {tol ptol stol : K} {fuel : Nat} {c : C} {s : S} {r : List (Hit K)}
    (h : nurbsCsx E tol ptol stol fuel c s = some (some r)) :
    r.Pairwise fun a b => tol ≤ |a.pt.x - b.pt.x| ∨ tol ≤ |a.pt.y - b.pt.y| ∨ tol ≤ |a.pt.z - b.pt.z| := by
  refine (intersect_pairwise fuel [] r c s h List.Pairwise.nil).imp fun {a b} h => ?_
  simp only [near, Bool.and_eq_false_iff, decide_eq_false_iff_not, not_lt] at h
  tauto

/-! ## Termination -/

/-- At most `N` points of the curve are pairwise apart. -/
def Packs (E : Env K C S) (tol : K) (c : C) (N : Nat) : Prop :=
  ∀ l : List (V K), l.Pairwise (fun a b => near tol a b = false) → (∀ p ∈ l, ∃ t, In (E.cint c) t ∧ p = E.cev c t) → l.length ≤ N

/-- The curve stays in a cube with `m` cells of side `tol` along each axis. -/
def InCube [FloorRing K] (E : Env K C S) (tol : K) (c : C) (a : V K) (m : Nat) : Prop :=
  ∀ t, In (E.cint c) t → (a.x ≤ (E.cev c t).x ∧ (E.cev c t).x < a.x + m * tol) ∧
    (a.y ≤ (E.cev c t).y ∧ (E.cev c t).y < a.y + m * tol) ∧ (a.z ≤ (E.cev c t).z ∧ (E.cev c t).z < a.z + m * tol)

/-- The cell of a coordinate. -/
theorem cell_lt [FloorRing K] {tol a x : K} {m : Nat} (ht : 0 < tol) (h1 : a ≤ x) (h2 : x < a + m * tol) :
    0 ≤ ⌊(x - a) / tol⌋ ∧ ⌊(x - a) / tol⌋ < m := by
  constructor
  · exact Int.floor_nonneg.2 (div_nonneg (by linarith) ht.le)
  · rw [Int.floor_lt]
    rw [div_lt_iff₀ ht]
    push_cast
    linarith

theorem cell_near [FloorRing K] {tol a x y : K} (ht : 0 < tol) (h : ⌊(x - a) / tol⌋ = ⌊(y - a) / tol⌋) : |x - y| < tol := by
  have e := Int.abs_sub_lt_one_of_floor_eq_floor h
  have : (x - a) / tol - (y - a) / tol = (x - y) / tol := by ring
  rw [this, abs_div, abs_of_pos ht, div_lt_one ht] at e
  exact e

/-- Cells bound the number of points: pigeon holes. -/
theorem packs_of_cube [FloorRing K] {E : Env K C S} {tol : K} (ht : 0 < tol) {c : C} {a : V K} {m : Nat} (h : InCube E tol c a m) :
    Packs E tol c (m * m * m) := by
  intro l hp hl
  classical
  let f : V K → ℤ × ℤ × ℤ := fun p => (⌊(p.x - a.x) / tol⌋, ⌊(p.y - a.y) / tol⌋, ⌊(p.z - a.z) / tol⌋)
  have hnd : (l.map f).Nodup := by
    rw [List.Nodup, List.pairwise_map]
    refine hp.imp fun {p q} hpq e => ?_
    simp only [f, Prod.mk.injEq] at e
    have : near tol p q = true := by
      simp only [near, Bool.and_eq_true, decide_eq_true_eq]
      exact ⟨⟨cell_near ht e.1, cell_near ht e.2.1⟩, cell_near ht e.2.2⟩
    rw [this] at hpq
    exact absurd hpq (by simp)
  have hsub : (l.map f).toFinset ⊆ Finset.Ico (0 : ℤ) m ×ˢ (Finset.Ico (0 : ℤ) m ×ˢ Finset.Ico (0 : ℤ) m) := by
    intro z hz
    simp only [List.mem_toFinset, List.mem_map] at hz
    obtain ⟨p, hp, rfl⟩ := hz
    obtain ⟨t, hti, rfl⟩ := hl p hp
    obtain ⟨⟨x1, x2⟩, ⟨y1, y2⟩, z1, z2⟩ := h t hti
    simp only [f, Finset.mem_product, Finset.mem_Ico]
    exact ⟨cell_lt ht x1 x2, cell_lt ht y1 y2, cell_lt ht z1 z2⟩
  have hc := Finset.card_le_card hsub
  rw [List.toFinset_card_of_nodup hnd, List.length_map] at hc
  simp only [Finset.card_product, Int.card_Ico, sub_zero, Int.toNat_natCast] at hc
  calc l.length ≤ m * (m * m) := hc
    _ = m * m * m := by ring

theorem callAll_ne_none {f : List (Hit K) → C → S → Option (Option (List (Hit K)))} {P : List (Hit K) → Prop} :
    ∀ (l : List (C × S)) (h : List (Hit K)), P h → (∀ p ∈ l, ∀ h, P h → f h p.1 p.2 ≠ none) →
      (∀ p ∈ l, ∀ h r, P h → f h p.1 p.2 = some (some r) → P r) → callAll f l h ≠ none := by
  intro l
  induction l with
  | nil => intro h _ _ _; simp [callAll]
  | cons p l ih =>
    intro h hP h1 h2
    unfold callAll
    cases e : f h p.1 p.2 with
    | none => exact absurd e (h1 p (by simp) h hP)
    | some o =>
      cases o with
      | none => simp
      | some h' => exact ih h' (h2 p (by simp) h h' hP e) (fun q hq => h1 q (by simp [hq])) (fun q hq => h2 q (by simp [hq]))

/-- The state of the recursion: entries on the curve, apart from each other. -/
structure St (E : Env K C S) (tol : K) (c0 : C) (N i : Nat) (h : List (Hit K)) : Prop where
  on : ∀ x ∈ h, ∃ t, In (E.cint c0) t ∧ x.pt = E.cev c0 t
  apart : h.Pairwise (fun a b => near tol a.pt b.pt = false)
  many : N ≤ h.length + i

theorem pairs_width {E : Env K C S} {okC okS} (hE : Spec E okC okS) {tl' : K} {s : S} (hs : okS s) {u v w : K}
    {c1 c2 : C} {q : S × S × S × S} (h2 : E.subdiv tl' s u v = some q) (hu1 : u - (E.sint s).1.1 < w) (hu2 : (E.sint s).1.2 - u < w) :
    ∀ p ∈ pairs c1 c2 q, (E.sint p.2).1.2 - (E.sint p.2).1.1 < w := by
  obtain ⟨_, _, b1, b2, b3, b4⟩ := hE.subdiv _ _ _ _ _ hs h2
  intro p hp
  simp only [pairs, List.mem_cons, List.not_mem_nil, or_false] at hp
  rcases hp with rfl | rfl | rfl | rfl | rfl | rfl | rfl | rfl
  · show (E.sint q.1).1.2 - (E.sint q.1).1.1 < w; rw [b1]; exact hu1
  · show (E.sint q.2.1).1.2 - (E.sint q.2.1).1.1 < w; rw [b2]; exact hu1
  · show (E.sint q.2.2.1).1.2 - (E.sint q.2.2.1).1.1 < w; rw [b3]; exact hu2
  · show (E.sint q.2.2.2).1.2 - (E.sint q.2.2.2).1.1 < w; rw [b4]; exact hu2
  · show (E.sint q.1).1.2 - (E.sint q.1).1.1 < w; rw [b1]; exact hu1
  · show (E.sint q.2.1).1.2 - (E.sint q.2.1).1.1 < w; rw [b2]; exact hu1
  · show (E.sint q.2.2.1).1.2 - (E.sint q.2.2.1).1.1 < w; rw [b3]; exact hu2
  · show (E.sint q.2.2.2).1.2 - (E.sint q.2.2.2).1.1 < w; rw [b4]; exact hu2

theorem intersect_ends {E : Env K C S} {okC okS} (hE : Spec E okC okS) {tol ptol stol : K} (hpt : 0 < ptol) {c0 : C} {N : Nat}
    (hN : Packs E tol c0 N) :
    ∀ (k i j : Nat) (hits : List (Hit K)) (c : C) (s : S), i + j < k → okC c → okS s → SubC E c c0 → St E tol c0 N i hits →
      (E.sint s).1.1 ≤ (E.sint s).1.2 → (E.sint s).1.2 - (E.sint s).1.1 < ptol * 2 ^ (j + 1) →
      intersect E tol ptol stol k hits c s ≠ none := by
  intro k
  induction k with
  | zero => intro i j _ _ _ h; omega
  | succ k ih =>
    intro i j hits c s hk hc hs hsub hst hle hw
    have key : ∀ (tl tl' t u v : K) (c1 c2 : C) (q : S × S × S × S) (hh : List (Hit K)) (i' j' : Nat), i' + j' < k →
        E.split tl c t = some (c1, c2) → E.subdiv tl' s u v = some q → (E.sint s).1.1 ≤ u → u ≤ (E.sint s).1.2 →
        u - (E.sint s).1.1 < ptol * 2 ^ (j' + 1) → (E.sint s).1.2 - u < ptol * 2 ^ (j' + 1) → St E tol c0 N i' hh →
        callAll (intersect E tol ptol stol k) (pairs c1 c2 q) hh ≠ none := by
      intro tl tl' t u v c1 c2 q hh i' j' hij h1 h2 hu1 hu2 hw1 hw2 hS
      have ok := pairs_ok hE hc hs h1 h2
      have wd := pairs_width (c1 := c1) (c2 := c2) hE hs h2 hw1 hw2
      have le := pairs_width (c1 := c1) (c2 := c2) hE hs h2 hw1 hw2
      refine callAll_ne_none (P := St E tol c0 N i') _ hh hS (fun p hp h hS => ?_) (fun p hp h r hS e => ?_)
      · obtain ⟨o1, o2, o3, o4⟩ := ok p hp
        refine ih i' j' h p.1 p.2 hij o1 o2 (o3.trans hsub) hS ?_ (wd p hp)
        obtain ⟨_, _, b1, b2, b3, b4⟩ := hE.subdiv _ _ _ _ _ hs h2
        simp only [pairs, List.mem_cons, List.not_mem_nil, or_false] at hp
        rcases hp with rfl | rfl | rfl | rfl | rfl | rfl | rfl | rfl
        · show (E.sint q.1).1.1 ≤ (E.sint q.1).1.2; rw [b1]; exact hu1
        · show (E.sint q.2.1).1.1 ≤ (E.sint q.2.1).1.2; rw [b2]; exact hu1
        · show (E.sint q.2.2.1).1.1 ≤ (E.sint q.2.2.1).1.2; rw [b3]; exact hu2
        · show (E.sint q.2.2.2).1.1 ≤ (E.sint q.2.2.2).1.2; rw [b4]; exact hu2
        · show (E.sint q.1).1.1 ≤ (E.sint q.1).1.2; rw [b1]; exact hu1
        · show (E.sint q.2.1).1.1 ≤ (E.sint q.2.1).1.2; rw [b2]; exact hu1
        · show (E.sint q.2.2.1).1.1 ≤ (E.sint q.2.2.1).1.2; rw [b3]; exact hu2
        · show (E.sint q.2.2.2).1.1 ≤ (E.sint q.2.2.2).1.2; rw [b4]; exact hu2
      · obtain ⟨o1, o2, o3, o4⟩ := ok p hp
        have pw := intersect_pairwise k h r p.1 p.2 e hS.apart
        obtain ⟨n, rfl, g⟩ := (intersect_adds hE k h r p.1 p.2 o1 o2 e).ext
        refine ⟨fun x hx => ?_, pw, ?_⟩
        · rcases List.mem_append.1 hx with hx | hx
          · exact hS.on x hx
          · have gx := (g x hx).t
            have hsc := o3.trans hsub
            exact ⟨x.t, ⟨hsc.1.trans gx.1, gx.2.trans hsc.2.1⟩, (g x hx).pt.trans (hsc.2.2 _ gx)⟩
        · have := hS.many
          simp only [List.length_append]
          omega
    unfold intersect
    by_cases h0 : E.sep c s = true
    · simp [h0]
    simp only [h0, Bool.false_eq_true, if_false]
    cases e : findNew E tol hits c s with
    | none =>
      dsimp only
      cases e1 : E.split stol c (((E.cint c).1 + (E.cint c).2) * (1 / 2)) with
      | none => simp
      | some cc =>
        obtain ⟨c1, c2⟩ := cc
        dsimp only
        by_cases h2 : atEdge E ptol s (((E.sint s).1.1 + (E.sint s).1.2) * (1 / 2)) (((E.sint s).2.1 + (E.sint s).2.2) * (1 / 2)) = true
        · rw [if_pos h2]; simp
        rw [if_neg h2]
        cases e2 : E.subdiv ptol s (((E.sint s).1.1 + (E.sint s).1.2) * (1 / 2)) (((E.sint s).2.1 + (E.sint s).2.2) * (1 / 2)) with
        | none => simp
        | some q =>
          dsimp only
          obtain _ | j := j
          · exfalso
            apply h2
            simp only [atEdge, Bool.or_eq_true, decide_eq_true_eq]
            left; left; left
            rw [zero_add, pow_one] at hw
            rw [abs_lt]
            constructor <;> linarith
          · have pw : ptol * 2 ^ (j + 1 + 1) = 2 * (ptol * 2 ^ (j + 1)) := by ring
            rw [pw] at hw
            exact key _ _ _ _ _ _ _ _ _ i j (by omega) e1 e2 (by linarith) (by linarith) (by linarith) (by linarith) hst
    | some x =>
      obtain ⟨p, t, u, v⟩ := x
      dsimp only
      obtain ⟨_, ht, hu, hv, rfl, hd, hn⟩ := findNew_some e
      by_cases h2 : atEdge E ptol s u v = true
      · simp [h2]
      simp only [h2, Bool.false_eq_true, if_false]
      by_cases h3 : E.sph c s (E.cev c t) = true
      · simp [h3]
      simp only [h3, Bool.false_eq_true, if_false]
      cases e1 : E.split ptol c t with
      | none => simp
      | some cc =>
        obtain ⟨c1, c2⟩ := cc
        dsimp only
        cases e2 : E.subdiv ptol s u v with
        | none => simp
        | some q =>
          dsimp only
          have ap : (hits ++ [(⟨E.degen c s (t, u, v), E.cev c t, t, u, v⟩ : Hit K)]).Pairwise (fun a b => near tol a.pt b.pt = false) := by
            rw [List.pairwise_append]
            refine ⟨hst.apart, by simp, fun a ha b hb => ?_⟩
            simp only [List.mem_singleton] at hb
            subst hb
            exact hn a ha
          have on : ∀ x ∈ hits ++ [(⟨E.degen c s (t, u, v), E.cev c t, t, u, v⟩ : Hit K)], ∃ t, In (E.cint c0) t ∧ x.pt = E.cev c0 t := by
            intro x hx
            rcases List.mem_append.1 hx with hx | hx
            · exact hst.on x hx
            · simp only [List.mem_singleton] at hx
              subst hx
              exact ⟨t, ⟨hsub.1.trans ht.1, ht.2.trans hsub.2.1⟩, hsub.2.2 _ ht⟩
          have len := hN ((hits ++ [(⟨E.degen c s (t, u, v), E.cev c t, t, u, v⟩ : Hit K)]).map Hit.pt) (by
            rw [List.pairwise_map]; exact ap) (by
            intro p hp
            obtain ⟨x, hx, rfl⟩ := List.mem_map.1 hp
            exact on x hx)
          have hm := hst.many
          rw [List.length_map, List.length_append, List.length_singleton] at len
          refine key _ _ _ _ _ _ _ _ _ (i - 1) j (by omega) e1 e2 hu.1 hu.2 (by linarith [hu.2]) (by linarith [hu.1]) ⟨on, ap, ?_⟩
          rw [List.length_append, List.length_singleton]
          omega

/-- **C254**: `nurbs_csx` ends.  If the curve stays in a cube of `m ^ 3` cells of side `tol` and the `u` interval of the surface is
shorter than `ptol * 2 ^ (j + 1)`, the recursion is never deeper than `m ^ 3 + j + 1` calls: a call that finds a point takes
one of the cells, and a call that finds none halves the patch. -/
theorem C254_terminates [FloorRing K] {E : Env K C S} {okC okS} (hE : Spec E okC okS) {tol ptol stol : K} (ht : 0 < tol)
    (hpt : 0 < ptol) {c : C} {s : S} (hc : okC c) (hs : okS s) {a : V K} {m j : Nat} (hcube : InCube E tol c a m)
    (hle : (E.sint s).1.1 ≤ (E.sint s).1.2) (hw : (E.sint s).1.2 - (E.sint s).1.1 < ptol * 2 ^ (j + 1)) {fuel : Nat}
    (hf : m * m * m + j < fuel) : nurbsCsx E tol ptol stol fuel c s ≠ none :=
  intersect_ends hE hpt (packs_of_cube ht hcube) fuel (m * m * m) j [] c s hf hc hs (SubC.refl E c)
    ⟨by simp, List.Pairwise.nil, by simp⟩ hle hw

/-- **C254**: for a bounded curve and any tolerances greater than 0 there is a depth at which the recursion ends. -/
theorem C254_bounded [FloorRing K] [Archimedean K] {E : Env K C S} {okC okS} (hE : Spec E okC okS) {tol ptol stol : K} (ht : 0 < tol)
    (hpt : 0 < ptol) {c : C} {s : S} (hc : okC c) (hs : okS s) {a : V K} {w : K}
    (hbox : ∀ t, In (E.cint c) t → |(E.cev c t).x - a.x| ≤ w ∧ |(E.cev c t).y - a.y| ≤ w ∧ |(E.cev c t).z - a.z| ≤ w)
    (hle : (E.sint s).1.1 ≤ (E.sint s).1.2) : ∃ depth, ∀ fuel, depth ≤ fuel → nurbsCsx E tol ptol stol fuel c s ≠ none := by
  obtain ⟨m, hm⟩ := Archimedean.arch (2 * w + 1) ht
  obtain ⟨j, hj⟩ := pow_unbounded_of_one_lt (((E.sint s).1.2 - (E.sint s).1.1) / ptol) (one_lt_two (α := K))
  rw [nsmul_eq_mul] at hm
  have hj' : (E.sint s).1.2 - (E.sint s).1.1 < ptol * 2 ^ (j + 1) := by
    rw [div_lt_iff₀ hpt] at hj
    have : (0 : K) < 2 ^ j * ptol := by positivity
    calc _ < 2 ^ j * ptol := hj
      _ ≤ ptol * 2 ^ (j + 1) := by rw [pow_succ]; linarith
  refine ⟨m * m * m + j + 1, fun fuel hf => C254_terminates hE ht hpt hc hs (a := ⟨a.x - w, a.y - w, a.z - w⟩) (m := m) (j := j)
    (fun t hti => ?_) hle hj' (by omega)⟩
  obtain ⟨x, y, z⟩ := hbox t hti
  rw [abs_le] at x y z
  dsimp only
  refine ⟨⟨?_, ?_⟩, ⟨?_, ?_⟩, ?_, ?_⟩ <;> linarith

end Verif.Csx
