import Verif.Nurbs.Props3

/-! # C65-C67: decomposition of surfaces, knot normalisation, default knots -/

set_option linter.unusedSectionVars false

namespace Verif.Nurbs
open Finset
variable {K : Type} [Field K] [LinearOrder K]

section ordered
variable [IsStrictOrderedRing K]

theorem SurfPiece.trans {S T R : Surf K} {fuel : Nat} {ab cd ab' cd' : K × K} (h1 : SurfPiece S fuel T ab cd)
    (h2 : SurfPiece T fuel R ab' cd') (ha : ab.1 ≤ ab'.1) (hb : ab'.2 ≤ ab.2) (hc : cd.1 ≤ cd'.1) (hd : cd'.2 ≤ cd.2) :
    SurfPiece S fuel R ab' cd' := by
  obtain ⟨_, a2, a3, _, _, _, _, a8⟩ := h1
  obtain ⟨b1, b2, b3, b4, b5, b6, b7, b8⟩ := h2
  exact ⟨b1, by rw [b2, a2], by rw [b3, a3], b4, b5, b6, b7, fun u v hu1 hu2 hv1 hv2 col => by
    rw [b8 u v hu1 hu2 hv1 hv2 col,
      a8 u v (le_trans ha hu1) (le_trans hu2 hb) (le_trans hc hv1) (le_trans hv2 hd) col]⟩

/-! ## C65 -/

/-- **C65, subdivision.** `subdivide_surface` at `(u, v)` returns the four quadrants, in the order
(left, low), (left, high), (right, low), (right, high). -/
theorem C65_subdivide (S : Surf K) (hS : SValid S) (hju : NoJump S.uCurve) (hjv : NoJump S.vCurve) (hpu : 1 ≤ S.pu)
    (hpv : 1 ≤ S.pv) (fuel : Nat) (eps : K → K) (heps : ∀ y, 0 ≤ eps y) (u v tol : K) (hfu : S.nu + S.pu + 1 ≤ fuel)
    (hfv : S.nv + S.pv + 1 ≤ fuel) (hu : SplitAt S.uCurve eps tol u) (hv : SplitAt S.vCurve eps tol v)
    (init junk : Nat → Nat → Nat → K) :
    ∃ S11 S12 S21 S22, subdivide S fuel eps tol init junk u v = some (some (S11, S12, S21, S22)) ∧
      SurfPiece S fuel S11 (S.U S.pu, u) (S.V S.pv, v) ∧ SurfPiece S fuel S12 (S.U S.pu, u) (v, S.V S.nv) ∧
      SurfPiece S fuel S21 (u, S.U S.nu) (S.V S.pv, v) ∧ SurfPiece S fuel S22 (u, S.U S.nu) (v, S.V S.nv) := by
  obtain ⟨S1, S2, e, p1, p2, a1, a2, a3, a4, a5, a6, a7, a8⟩ :=
    C63_split_surface_u S hS hju hpu fuel eps heps u tol hfu (by omega) hu init junk
  have tr : ∀ T : Surf K, T.V = S.V → T.mv = S.mv → T.nv = S.nv → T.pv = S.pv →
      NoJump T.vCurve ∧ SplitAt T.vCurve eps tol v := by
    intro T h1 h2 h3 h4
    constructor
    · intro j
      show j + T.pv < T.mv → T.V T.pv < T.V j → T.V j < T.V T.nv → T.V j < T.V (j + T.pv)
      rw [h1, h2, h3, h4]
      exact hjv j
    · show T.V T.pv < v ∧ v < T.V T.nv ∧ tol < v - T.V 0 ∧ tol < T.V (T.mv - 1) - v ∧
        ∀ i, i < T.mv → |v - T.V i| ≤ eps (T.V i) → T.V i = v
      rw [h1, h2, h3, h4]
      exact hv
  have hv1 := hv.1
  have hv2 := hv.2.1
  have hp1 := p1
  have hp2 := p2
  obtain ⟨v1, b1, b2, b3, b4, b5, b6, b7⟩ := p1
  obtain ⟨v2, c1, c2, c3, c4, c5, c6, c7⟩ := p2
  obtain ⟨j1, s1⟩ := tr S1 a1 a2 a3 b2
  obtain ⟨j2, s2⟩ := tr S2 a4 a5 a6 c2
  obtain ⟨S11, S12, e1, q11, q12, _⟩ := C63_split_surface_v S1 v1 j1 (by omega) fuel eps heps v tol (by omega) (by omega) s1
    init junk
  obtain ⟨S21, S22, e2, q21, q22, _⟩ := C63_split_surface_v S2 v2 j2 (by omega) fuel eps heps v tol (by omega) (by omega) s2
    init junk
  rw [b3, b4, b5] at q11
  rw [b3, b4, b6] at q12
  rw [c3, c4, c5] at q21
  rw [c3, c4, c6] at q22
  refine ⟨S11, S12, S21, S22, by rw [subdivide, e]; simp only; rw [e1]; simp only; rw [e2], ?_, ?_, ?_, ?_⟩
  · exact hp1.trans q11 (le_refl _) (le_refl _) (le_refl _) (le_of_lt hv2)
  · exact hp1.trans q12 (le_refl _) (le_refl _) (le_of_lt hv1) (le_refl _)
  · exact hp2.trans q21 (le_refl _) (le_refl _) (le_refl _) (le_of_lt hv2)
  · exact hp2.trans q22 (le_refl _) (le_refl _) (le_of_lt hv1) (le_refl _)

/-- The consecutive intervals of `a < ts < b`. -/
def intervals (a : K) : List K → K → List (K × K)
  | [], b => [(a, b)]
  | t :: ts, b => (a, t) :: intervals t ts b

theorem pieces_forall₂ (c : Curve K) : ∀ (ds : List (Curve K)) (a : K) (ts : List K) (b : K), ColPieces c ds a ts b →
    List.Forall₂ (fun d (i : K × K) => ColPiece c d i.1 i.2) ds (intervals a ts b) := by
  intro ds
  induction ds with
  | nil => intro a ts b h; cases ts <;> exact h.elim
  | cons d ds ih =>
    intro a ts b h
    cases ts with
    | nil =>
      cases ds with
      | nil => exact List.Forall₂.cons h List.Forall₂.nil
      | cons _ _ => exact h.elim
    | cons t ts =>
      have hh : ColPiece c d a t ∧ ColPieces c ds t ts b := by cases ds <;> exact h
      exact List.Forall₂.cons hh.1 (ih t ts b hh.2)

theorem intervals_mem (lo hi : K) : ∀ (ts : List K) (a b : K), lo ≤ a → b ≤ hi → (∀ t ∈ ts, lo ≤ t ∧ t ≤ hi) →
    ∀ i ∈ intervals a ts b, lo ≤ i.1 ∧ i.2 ≤ hi := by
  intro ts
  induction ts with
  | nil => intro a b ha hb _ i hi'; rw [intervals, List.mem_singleton] at hi'; rw [hi']; exact ⟨ha, hb⟩
  | cons t ts ih =>
    intro a b ha hb ht i hi'
    rw [intervals, List.mem_cons] at hi'
    have h0 := ht t List.mem_cons_self
    rcases hi' with h | h
    · rw [h]; exact ⟨ha, h0.2⟩
    · exact ih t b h0.1 hb (fun t' h' => ht t' (List.mem_cons_of_mem _ h')) i h

theorem insertSet_mem (x y : K) : ∀ l : List K, y ∈ insertSet x l ↔ y = x ∨ y ∈ l := by
  intro l
  induction l with
  | nil => simp [insertSet]
  | cons z l ih =>
    rw [insertSet]
    split
    · simp
    · split
      · rename_i _ h
        subst h
        simp
      · simp only [List.mem_cons, ih]
        constructor
        · rintro (h | h | h)
          · exact Or.inr (Or.inl h)
          · exact Or.inl h
          · exact Or.inr (Or.inr h)
        · rintro (h | h | h)
          · exact Or.inr (Or.inl h)
          · exact Or.inl h
          · exact Or.inr (Or.inr h)

theorem insertSet_sorted (x : K) : ∀ l : List K, l.Pairwise (· < ·) → (insertSet x l).Pairwise (· < ·) := by
  intro l
  induction l with
  | nil => intro _; simp [insertSet]
  | cons z l ih =>
    intro h
    rw [insertSet]
    rw [List.pairwise_cons] at h
    split
    · rename_i hlt
      rw [List.pairwise_cons]
      exact ⟨fun y hy => by
        rcases List.mem_cons.mp hy with e | e
        · rw [e]; exact hlt
        · exact lt_trans hlt (h.1 y e), List.pairwise_cons.mpr h⟩
    · split
      · exact List.pairwise_cons.mpr h
      · rename_i h1 h2
        rw [List.pairwise_cons]
        refine ⟨fun y hy => ?_, ih h.2⟩
        rcases (insertSet_mem x y l).mp hy with e | e
        · rw [e]; exact lt_of_le_of_ne (not_lt.mp h1) (Ne.symm h2)
        · exact h.1 y e

theorem innerKnots_sorted (U : Nat → K) (m p : Nat) : (innerKnots U m p).Pairwise (· < ·) := by
  rw [innerKnots]
  generalize (List.range (m - 2 * (p + 1))).map (fun i => U (p + 1 + i)) = l
  induction l with
  | nil => exact List.Pairwise.nil
  | cons x l ih => exact insertSet_sorted x _ ih

theorem innerKnots_mem (U : Nat → K) (m p : Nat) (y : K) :
    y ∈ innerKnots U m p ↔ ∃ k, p < k ∧ k + p + 1 < m ∧ U k = y := by
  have h : ∀ l : List K, y ∈ l.foldr insertSet [] ↔ y ∈ l := by
    intro l
    induction l with
    | nil => rfl
    | cons x l ih => rw [List.foldr_cons, insertSet_mem, ih, List.mem_cons]
  rw [innerKnots, h, List.mem_map]
  constructor
  · rintro ⟨i, hi, e⟩
    rw [List.mem_range] at hi
    exact ⟨p + 1 + i, by omega, by omega, e⟩
  · rintro ⟨k, h1, h2, e⟩
    exact ⟨k - (p + 1), by rw [List.mem_range]; omega, by rw [← e]; congr 1; omega⟩

theorem withU_uCurve (S : Surf K) (c : Curve K) (hd : c.degree = S.pu) (hp : c.periodic = false) : (S.withU c).uCurve = c := by
  cases c
  simp only at hd hp
  subst hd hp
  simp [Surf.uCurve, Surf.withU, Nat.pair_unpair]

theorem withV_vCurve (S : Surf K) (c : Curve K) (hd : c.degree = S.pv) (hp : c.periodic = false) : (S.withV c).vCurve = c := by
  cases c
  simp only at hd hp
  subst hd hp
  simp [Surf.vCurve, Surf.withV, Nat.pair_unpair]

theorem splitCurve_data (c : Curve K) (fuel : Nat) (eps : K → K) (tol : K) (init junk : Nat → Nat → K) (t : K)
    (c1 c2 : Curve K) (h : splitCurve c fuel eps tol init junk t = some (some (c1, c2))) :
    c2.degree = c.degree ∧ c2.periodic = false := by
  rw [splitCurve] at h
  simp only at h
  split at h
  · cases h
  · split at h
    · cases h
    · split at h
      · cases h
      · split at h
        · cases h
        · simp only [Option.some.injEq, Prod.mk.injEq] at h
          rw [← h.2]
          exact ⟨rfl, rfl⟩

theorem decomposeU_eq (fuel : Nat) (eps : K → K) (tol : K) (init junk : Nat → Nat → Nat → K) : ∀ (ts : List K) (S : Surf K),
    decomposeU fuel eps tol init junk S ts =
      (splitMultiple fuel eps tol (curry3 init) (curry3 junk) S.uCurve ts).map (Option.map (List.map S.withU)) := by
  intro ts
  induction ts with
  | nil =>
    intro S
    simp [decomposeU, splitMultiple, Surf.withU, Surf.uCurve, Nat.unpair_pair]
  | cons t ts ih =>
    intro S
    rw [decomposeU, splitMultiple, splitU_eq]
    cases h : splitCurve S.uCurve fuel eps tol (curry3 init) (curry3 junk) t with
    | none => rfl
    | some r =>
      cases r with
      | none => rfl
      | some cs =>
        obtain ⟨c1, c2⟩ := cs
        obtain ⟨hd, hp⟩ := splitCurve_data S.uCurve fuel eps tol _ _ t c1 c2 h
        simp only [Option.map_some]
        rw [ih (S.withU c2), withU_uCurve S c2 hd hp]
        cases splitMultiple fuel eps tol (curry3 init) (curry3 junk) c2 ts with
        | none => rfl
        | some r =>
          cases r with
          | none => rfl
          | some l => rfl

theorem decomposeV_eq (fuel : Nat) (eps : K → K) (tol : K) (init junk : Nat → Nat → Nat → K) : ∀ (ts : List K) (S : Surf K),
    decomposeV fuel eps tol init junk S ts =
      (splitMultiple fuel eps tol (curry3' init) (curry3' junk) S.vCurve ts).map (Option.map (List.map S.withV)) := by
  intro ts
  induction ts with
  | nil =>
    intro S
    simp [decomposeV, splitMultiple, Surf.withV, Surf.vCurve, Nat.unpair_pair]
  | cons t ts ih =>
    intro S
    rw [decomposeV, splitMultiple, splitV_eq]
    cases h : splitCurve S.vCurve fuel eps tol (curry3' init) (curry3' junk) t with
    | none => rfl
    | some r =>
      cases r with
      | none => rfl
      | some cs =>
        obtain ⟨c1, c2⟩ := cs
        obtain ⟨hd, hp⟩ := splitCurve_data S.vCurve fuel eps tol _ _ t c1 c2 h
        simp only [Option.map_some]
        rw [ih (S.withV c2), withV_vCurve S c2 hd hp]
        cases splitMultiple fuel eps tol (curry3' init) (curry3' junk) c2 ts with
        | none => rfl
        | some r =>
          cases r with
          | none => rfl
          | some l => rfl

/-- Conditions under which a direction can be cut at all its inner knots: degree at least 1, inner knots of multiplicity at
most the degree, different from the two ends, and different knots further apart than both tolerances. -/
structure Cuttable (c : Curve K) (eps : K → K) (tol : K) : Prop where
  deg : 1 ≤ c.degree
  noJump : NoJump c
  start : c.U c.degree < c.U (c.degree + 1)
  gap : ∀ i j, i < c.m → j < c.m → c.U i < c.U j → tol < c.U j - c.U i
  sep : ∀ i j, i < c.m → j < c.m → |c.U i - c.U j| ≤ eps (c.U j) → c.U j = c.U i

theorem cut_all (c : Curve K) (hc : Valid c) (hper : c.periodic = false) (fuel : Nat) (hf : c.m ≤ fuel) (eps : K → K)
    (heps : ∀ y, 0 ≤ eps y) (tol : K) (htol : 0 ≤ tol) (hcut : Cuttable c eps tol) (init junk : Nat → Nat → K) :
    ∃ ds, splitMultiple fuel eps tol init junk c (innerKnots c.U c.m c.degree) = some (some ds) ∧
      List.Forall₂ (fun d (i : K × K) => ColPiece c d i.1 i.2 ∧ d.n = c.degree + 1) ds
        (intervals (c.U c.degree) (innerKnots c.U c.m c.degree) (c.U c.n)) ∧
      (∀ t ∈ innerKnots c.U c.m c.degree, c.U c.degree < t ∧ t < c.U c.n) ∧
      (c.U 0 = c.U c.degree → c.U (c.m - 1) = c.U c.n → ∀ d ∈ ds, d.U 0 = d.U d.degree ∧ d.U (d.m - 1) = d.U d.n) ∧
      ∀ w, (∀ l, l < c.n → c.P l 3 = w) → ∀ d ∈ ds, ∀ l, l < d.n → d.P l 3 = w := by
  have hk := hc.knots
  have hnp := hc.npos
  have hin : ∀ t ∈ innerKnots c.U c.m c.degree, ∃ k, c.degree < k ∧ k < c.n ∧ c.U k = t := by
    intro t ht
    obtain ⟨k, h1, h2, h3⟩ := (innerKnots_mem _ _ _ _).mp ht
    exact ⟨k, h1, by omega, h3⟩
  have hdom : ∀ t ∈ innerKnots c.U c.m c.degree, c.U c.degree < t ∧ t < c.U c.n := by
    intro t ht
    obtain ⟨k, h1, h2, h3⟩ := hin t ht
    rw [← h3]
    exact ⟨lt_of_lt_of_le hcut.start (hc.mono _ _ (by omega) (by omega)),
      lt_of_le_of_lt (hc.mono _ (c.n - 1) (by omega) (by omega)) hc.last⟩
  obtain ⟨ds, h1, h2, h3⟩ := split_multiple_columns fuel eps heps tol htol init junk (innerKnots c.U c.m c.degree) c hc hper
    hcut.noJump hcut.deg hf
    (fun t ht => by
      obtain ⟨k, k1, k2, k3⟩ := hin t ht
      obtain ⟨d1, d2⟩ := hdom t ht
      rw [← k3] at d1 d2 ⊢
      exact ⟨hcut.gap _ _ (by omega) (by omega) d1, hcut.gap _ _ (by omega) (by omega) d2⟩)
    ((innerKnots_sorted c.U c.m c.degree).imp_of_mem (fun {s t} hs ht hst => by
      obtain ⟨k, k1, k2, k3⟩ := hin s hs
      obtain ⟨l, l1, l2, l3⟩ := hin t ht
      rw [← k3, ← l3] at hst ⊢
      exact hcut.gap _ _ (by omega) (by omega) hst))
    (fun t ht => by
      obtain ⟨k, k1, k2, k3⟩ := hin t ht
      refine ⟨fun i hi hle => ?_, fun s hs hle => ?_⟩
      · rw [← k3] at hle ⊢
        exact hcut.sep _ _ (by omega) hi hle
      · obtain ⟨l, l1, l2, l3⟩ := hin s hs
        rw [← k3, ← l3] at hle ⊢
        exact hcut.sep _ _ (by omega) (by omega) hle)
  refine ⟨ds, h1, ?_, hdom, h3.2⟩
  have hb := h3.1 hcut.start (fun k k1 k2 => (innerKnots_mem _ _ _ _).mpr ⟨k, k1, by omega, rfl⟩)
  have := (List.forall₂_and_left (p := fun d : Curve K => d.n = c.degree + 1)
    (R := fun d (i : K × K) => ColPiece c d i.1 i.2) ds _).mpr ⟨hb, pieces_forall₂ c ds _ _ _ h2⟩
  exact this.imp (fun _ _ h => ⟨h.2, h.1⟩)

theorem forall₂_imp_mem {α β : Type} {R Q : α → β → Prop} {l : List α} {u : List β} (h : List.Forall₂ R l u)
    (hq : ∀ a b, b ∈ u → R a b → Q a b) : List.Forall₂ Q l u := by
  induction h with
  | nil => exact List.Forall₂.nil
  | cons h1 _ ih => exact List.Forall₂.cons (hq _ _ List.mem_cons_self h1) (ih fun a b hb => hq a b (List.mem_cons_of_mem _ hb))

/-- **C57, decomposition.** Cutting a non-periodic curve at its distinct inner knots (`decompose_curve`): one curve per knot
interval, in order, each a Bezier curve (`degree + 1` control points) whose columns are those of the original on its
interval. -/
theorem C57_decompose_bezier (c : Curve K) (hc : Valid c) (hper : c.periodic = false) (fuel : Nat) (hf : c.m ≤ fuel)
    (eps : K → K) (heps : ∀ y, 0 ≤ eps y) (tol : K) (htol : 0 ≤ tol) (hcut : Cuttable c eps tol) (init junk : Nat → Nat → K) :
    ∃ ds, splitMultiple fuel eps tol init junk c (innerKnots c.U c.m c.degree) = some (some ds) ∧
      List.Forall₂ (fun d (i : K × K) => ColPiece c d i.1 i.2 ∧ d.n = c.degree + 1) ds
        (intervals (c.U c.degree) (innerKnots c.U c.m c.degree) (c.U c.n)) := by
  obtain ⟨ds, h1, h2, _⟩ := cut_all c hc hper fuel hf eps heps tol htol hcut init junk
  exact ⟨ds, h1, h2⟩

theorem strips (S : Surf K) (fuel : Nat) (eps : K → K) (heps : ∀ y, 0 ≤ eps y) (tol : K) (htol : 0 ≤ tol)
    (hfu : S.pu + 1 ≤ fuel) (hfv : S.mv ≤ fuel) (hcv : Cuttable S.vCurve eps tol) (init junk : Nat → Nat → Nat → K) :
    ∀ (l : List (Surf K)) (is : List (K × K)),
    List.Forall₂ (fun T (i : K × K) => SurfPiece S fuel T i (S.V S.pv, S.V S.nv) ∧ T.nu = S.pu + 1 ∧
      T.V = S.V ∧ T.mv = S.mv ∧ T.nv = S.nv) l is →
    ∃ r, decomposeStrips fuel eps tol init junk l = some (some r) ∧
      List.Forall₂ (fun T (i : (K × K) × (K × K)) => SurfPiece S fuel T i.1 i.2 ∧ T.nu = S.pu + 1 ∧ T.nv = S.pv + 1) r
        (is.flatMap fun i => (intervals (S.V S.pv) (innerKnots S.V S.mv S.pv) (S.V S.nv)).map fun j => (i, j)) := by
  intro l is h
  induction h with
  | nil => exact ⟨[], rfl, List.Forall₂.nil⟩
  | @cons T i l is hT _ ih =>
    obtain ⟨r, hr, hrp⟩ := ih
    obtain ⟨hp, hnu, hV, hmv, hnv⟩ := hT
    have hp0 := hp
    obtain ⟨q1, q2, q3, q4, q5, q6, q7, q8⟩ := hp
    have hcT : Cuttable T.vCurve eps tol := by
      have e : T.vCurve.degree = S.vCurve.degree ∧ T.vCurve.m = S.vCurve.m ∧ T.vCurve.U = S.vCurve.U ∧
          T.vCurve.n = S.vCurve.n := ⟨q3, hmv, hV, hnv⟩
      obtain ⟨e1, e2, e3, e4⟩ := e
      obtain ⟨g1, g2, g3, g4, g5⟩ := hcv
      exact ⟨by rw [e1]; exact g1, by rw [NoJump, e1, e2, e3, e4]; exact g2, by rw [e1, e3]; exact g3,
        by rw [e2, e3]; exact g4, by rw [e2, e3]; exact g5⟩
    obtain ⟨ds, d1, d2, d3, _⟩ := cut_all T.vCurve q1.v rfl fuel (by show T.mv ≤ fuel; omega) eps heps tol htol hcT
      (curry3' init) (curry3' junk)
    have hTk := q1.v.knots
    have hTk' : T.mv = T.nv + T.pv + 1 := hTk
    refine ⟨ds.map T.withV ++ r, ?_, ?_⟩
    · rw [decomposeStrips, decomposeV_eq]
      have d1' : splitMultiple fuel eps tol (curry3' init) (curry3' junk) T.vCurve (innerKnots T.V T.mv T.pv) =
          some (some ds) := d1
      rw [d1']
      simp only [Option.map_some]
      rw [hr]
    · rw [List.flatMap_cons]
      refine List.rel_append ?_ hrp
      rw [List.forall₂_map_left_iff, List.forall₂_map_right_iff]
      have hVp : T.V T.pv = S.V S.pv := by rw [hV, q3]
      have hVn : T.V T.nv = S.V S.nv := by rw [hV, hnv]
      have d2' : List.Forall₂ (fun d (i : K × K) => ColPiece T.vCurve d i.1 i.2 ∧ d.n = T.pv + 1) ds
        (intervals (T.V T.pv) (innerKnots T.V T.mv T.pv) (T.V T.nv)) := d2
      have hmem := intervals_mem (T.V T.pv) (T.V T.nv) (innerKnots T.V T.mv T.pv) (T.V T.pv) (T.V T.nv) (le_refl _)
        (le_refl _) (fun t ht => ⟨le_of_lt (d3 t ht).1, le_of_lt (d3 t ht).2⟩)
      have := forall₂_imp_mem d2' (Q := fun d j => SurfPiece S fuel (T.withV d) i j ∧ (T.withV d).nu = S.pu + 1 ∧
          (T.withV d).nv = S.pv + 1) (fun d j hj hd => by
        obtain ⟨m1, m2⟩ := hmem j hj
        obtain ⟨pv, pn⟩ := piece_v T q1 fuel (by omega) (by omega) d j.1 j.2 m1 m2 hd.1
        rw [q4, q5] at pv
        refine ⟨hp0.trans pv (le_refl _) (le_refl _) ?_ ?_, hnu, by rw [pn, hd.2, q3]⟩
        · show S.V S.pv ≤ j.1; rw [← hVp]; exact m1
        · show j.2 ≤ S.V S.nv; rw [← hVn]; exact m2)
      rw [hVp, hVn, hV, hmv, q3] at this
      exact this

/-- **C65, decomposition.** `decompose_surface(surface, "uv")` for arbitrary weights: no exception; one patch for every pair of
consecutive distinct knots, ordered by u interval and then by v interval; every patch is a Bezier patch
(`(pu+1) × (pv+1)` control points) on its rectangle and agrees there with the surface. -/
theorem C65_decompose_surface (S : Surf K) (hS : SValid S) (fuel : Nat) (eps : K → K) (heps : ∀ y, 0 ≤ eps y) (tol : K)
    (htol : 0 ≤ tol) (hfu : S.mu ≤ fuel) (hfv : S.mv ≤ fuel) (hcu : Cuttable S.uCurve eps tol) (hcv : Cuttable S.vCurve eps tol)
    (init junk : Nat → Nat → Nat → K) :
    ∃ r, decomposeSurface S fuel eps tol init junk = some (some r) ∧
      List.Forall₂ (fun T (i : (K × K) × (K × K)) => SurfPiece S fuel T i.1 i.2 ∧ T.nu = S.pu + 1 ∧ T.nv = S.pv + 1) r
        ((intervals (S.U S.pu) (innerKnots S.U S.mu S.pu) (S.U S.nu)).flatMap fun i =>
          (intervals (S.V S.pv) (innerKnots S.V S.mv S.pv) (S.V S.nv)).map fun j => (i, j)) := by
  have hku : S.mu = S.nu + S.pu + 1 := hS.u.knots
  have hkv : S.mv = S.nv + S.pv + 1 := hS.v.knots
  have hnu : S.pu < S.nu := hS.u.npos
  obtain ⟨ds, d1, d2, d3, _⟩ := cut_all S.uCurve hS.u rfl fuel hfu eps heps tol htol hcu (curry3 init) (curry3 junk)
  have hmem := intervals_mem (S.U S.pu) (S.U S.nu) (innerKnots S.U S.mu S.pu) (S.U S.pu) (S.U S.nu) (le_refl _)
    (le_refl _) (fun t ht => ⟨le_of_lt (d3 t ht).1, le_of_lt (d3 t ht).2⟩)
  have hl := forall₂_imp_mem d2 (Q := fun d i => SurfPiece S fuel (S.withU d) i (S.V S.pv, S.V S.nv) ∧
      (S.withU d).nu = S.pu + 1 ∧ (S.withU d).V = S.V ∧ (S.withU d).mv = S.mv ∧ (S.withU d).nv = S.nv)
    (fun d i hi hd => by
      obtain ⟨m1, m2⟩ := hmem i hi
      obtain ⟨p, pn⟩ := piece_u S hS fuel (by omega) (by omega) d i.1 i.2 m1 m2 hd.1
      exact ⟨p, by rw [pn, hd.2]; rfl, rfl, rfl, rfl⟩)
  rw [← List.forall₂_map_left_iff (f := S.withU) (R := fun T i => SurfPiece S fuel T i (S.V S.pv, S.V S.nv) ∧
      T.nu = S.pu + 1 ∧ T.V = S.V ∧ T.mv = S.mv ∧ T.nv = S.nv)] at hl
  obtain ⟨r, hr, hrp⟩ := strips S fuel eps heps tol htol (by omega) hfv hcv init junk _ _ hl
  refine ⟨r, ?_, hrp⟩
  rw [decomposeSurface, decomposeU_eq]
  have d1' : splitMultiple fuel eps tol (curry3 init) (curry3 junk) S.uCurve (innerKnots S.U S.mu S.pu) =
    some (some ds) := d1
  rw [d1']
  simp only [Option.map_some]
  exact hr

end ordered

/-- The hypotheses hold on the example, which has 2 x 2 patches. -/
example : SValid exSurf ∧ Cuttable exSurf.uCurve (fun _ => 1 / 100) (1 / 100) ∧
    Cuttable exSurf.vCurve (fun _ => 1 / 100) (1 / 100) ∧
    ((decomposeSurface exSurf 20 (fun _ => 1 / 100) (1 / 100) (fun _ _ _ => 5) (fun _ _ _ => 6)).map
      (Option.map (List.map fun T => ((List.range T.mu).map T.U, (List.range T.mv).map T.V, T.nu, T.nv)))) =
      some (some [([0, 0, 0, 1, 1, 1], [0, 0, 1, 1], 3, 2), ([0, 0, 0, 1, 1, 1], [1, 1, 3, 3], 3, 2),
        ([1, 1, 1, 2, 2, 2], [0, 0, 1, 1], 3, 2), ([1, 1, 1, 2, 2, 2], [1, 1, 3, 3], 3, 2)]) := by
  refine ⟨exSurf_valid, ⟨by decide, exSurf_noJump.1, by norm_num [exSurf, Surf.uCurve, kvec], ?_, ?_⟩,
    ⟨by decide, exSurf_noJump.2, by norm_num [exSurf, Surf.vCurve, kvec], ?_, ?_⟩, by decide +kernel⟩
  · intro i j hi hj
    have h1 : i < 7 := hi
    have h2 : j < 7 := hj
    interval_cases i <;> interval_cases j <;> norm_num [exSurf, Surf.uCurve, kvec]
  · intro i j hi hj
    have h1 : i < 7 := hi
    have h2 : j < 7 := hj
    interval_cases i <;> interval_cases j <;> norm_num [exSurf, Surf.uCurve, kvec, abs_le]
  · intro i j hi hj
    have h1 : i < 5 := hi
    have h2 : j < 5 := hj
    interval_cases i <;> interval_cases j <;> norm_num [exSurf, Surf.vCurve, kvec]
  · intro i j hi hj
    have h1 : i < 5 := hi
    have h2 : j < 5 := hj
    interval_cases i <;> interval_cases j <;> norm_num [exSurf, Surf.vCurve, kvec, abs_le]

end Verif.Nurbs
