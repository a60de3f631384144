import Verif.Csx.Props
import Verif.Nurbs.Props4

/-! # C253, C254 for NURBS curves and surfaces

The operations of `Env` are those of the model of `nurbs.pyx`; `okC` and `okS` describe clamped curves and surfaces, and splitting
stays inside. -/

set_option linter.unusedSectionVars false

namespace Verif.Csx

open Verif.Mol (V)
open Verif.Ccx (dist2)
open Verif.Nurbs
open Finset

variable {K : Type} [Field K] [LinearOrder K] [IsStrictOrderedRing K]

/-- A clamped curve without jumps: the ends of the knot vector are the ends of the domain. -/
structure Clean (c : Curve K) : Prop where
  valid : Valid c
  noJump : NoJump c
  deg : 1 ≤ c.degree
  start : c.U 0 = c.U c.degree
  stop : c.U (c.m - 1) = c.U c.n

/-- What a split gives for a clamped curve, column by column. -/
structure Parts (c : Curve K) (t : K) (c1 c2 : Curve K) : Prop where
  clean1 : Clean c1
  clean2 : Clean c2
  deg1 : c1.degree = c.degree
  deg2 : c2.degree = c.degree
  per1 : c1.periodic = false
  per2 : c2.periodic = false
  lo1 : c1.U 0 = c.U 0
  hi1 : c1.U (c1.m - 1) = t
  lo2 : c2.U 0 = t
  hi2 : c2.U (c2.m - 1) = c.U (c.m - 1)
  n1 : c1.n ≤ c.n
  n2 : c2.n ≤ c.n
  inside : c.U 0 < t ∧ t < c.U (c.m - 1)
  val1 : ∀ x, c.U 0 ≤ x → x ≤ t → ∀ col, specVal c1 (fun l => c1.P l col) x = specVal c (fun l => c.P l col) x
  val2 : ∀ x, t ≤ x → x ≤ c.U (c.m - 1) → ∀ col, specVal c2 (fun l => c2.P l col) x = specVal c (fun l => c.P l col) x
  w : ∀ w, (∀ l, l < c.n → c.P l 3 = w) → (∀ l, l < c1.n → c1.P l 3 = w) ∧ ∀ l, l < c2.n → c2.P l 3 = w

theorem split_clean (c : Curve K) (hc : Clean c) (fuel : Nat) (hf : c.n + c.degree + 1 ≤ fuel) (tol t : K) (init junk : Nat → Nat → K)
    {c1 c2 : Curve K} (h : splitCurve c fuel (fun _ => 0) tol init junk t = some (some (c1, c2))) : Parts c t c1 c2 := by
  have hv := hc.valid
  have hk := hv.knots
  have hnp := hv.npos
  have hg : ¬ (t ≤ c.U 0 ∨ c.U (c.m - 1) ≤ t ∨ |t - c.U 0| ≤ tol ∨ |t - c.U (c.m - 1)| ≤ tol) := by
    intro hh
    rw [splitCurve] at h
    simp only at h
    rw [if_pos hh] at h
    simp at h
  push Not at hg
  obtain ⟨g1, g2, g3, g4⟩ := hg
  rw [abs_of_pos (by linarith)] at g3
  rw [abs_of_neg (by linarith)] at g4
  have hl : c.U c.degree < t := by rw [← hc.start]; exact g1
  have hh : t < c.U c.n := by rw [← hc.stop]; exact g2
  have hsep : ∀ i, i < c.m → |t - c.U i| ≤ (fun _ : K => (0 : K)) (c.U i) → c.U i = t := by
    intro i _ hi
    have := abs_nonpos_iff.1 hi
    linarith
  have hmult := mult_le_degree c hv hc.noJump (fun _ => 0) t hl hh hsep
  obtain ⟨d1, d2, h0, v1, v2, e1, e2, p1, p2, a1, a2, a3, a4, hn, f1, f2, fw, b0, ⟨d, bd, bU⟩, b2, bl, b3⟩ :=
    split_columns c hv hc.deg fuel (fun _ => 0) (fun _ => le_rfl) t tol hf hl hh (by linarith) (by linarith) hsep hmult init junk
  rw [h0] at h
  simp only [Option.some.injEq, Prod.mk.injEq] at h
  obtain ⟨rfl, rfl⟩ := h
  have k1 := v1.knots
  have k2 := v2.knots
  have np1 := v1.npos
  have np2 := v2.npos
  have hend : d2.U (d2.m - 1) = c.U (c.m - 1) := by
    rw [bU _ (by omega)]
    congr 1
    omega
  have hstart : d1.U 0 = c.U 0 := bl 0 (by omega)
  have htail : ∀ k, d1.n ≤ k → k < d1.m → d1.U k = t := by
    intro k h1 h2
    apply le_antisymm
    · rw [← b2]; exact v1.mono _ _ (by omega) (by omega)
    · rw [← a2]; exact v1.mono _ _ h1 h2
  refine ⟨⟨v1, ?_, by rw [e1]; exact hc.deg, by rw [hstart, a1]; exact hc.start, by rw [b2, a2]⟩,
    ⟨v2, ?_, by rw [e2]; exact hc.deg, by rw [b0, a3], by rw [hend, a4]; exact hc.stop⟩,
    e1, e2, p1, p2, hstart, b2, b0, hend, by omega, by omega, ⟨g1, g2⟩, ?_, ?_, fw⟩
  · intro j hj1 hj2 hj3
    rw [a2] at hj3
    rw [a1] at hj2
    have hjn : j < d1.n := by
      by_contra hcon
      rw [htail j (by omega) (by omega)] at hj3
      exact lt_irrefl _ hj3
    rw [bl j hjn] at hj2 hj3 ⊢
    by_cases hjp : j + d1.degree < d1.n
    · rw [bl _ hjp, e1]
      exact hc.noJump j (by omega) hj2 (hj3.trans hh)
    · rw [htail _ (by omega) hj1]
      exact hj3
  · intro j hj1 hj2 hj3
    rw [a3] at hj2
    rw [a4] at hj3
    have hjp : c.degree < j := by
      by_contra hcon
      have : d2.U j ≤ d2.U d2.degree := v2.mono _ _ (by omega) (by omega)
      rw [a3] at this
      exact absurd hj2 (not_lt.2 this)
    rw [bU j hjp] at hj2 hj3 ⊢
    rw [bU _ (by omega), show j + d2.degree + d = (j + d) + c.degree by omega]
    exact hc.noJump (j + d) (by omega) (hl.trans hj2) hj3
  · intro x h1 h2; rw [hc.start] at h1; exact f1 x h1 h2
  · intro x h1 h2; rw [hc.stop] at h2; exact f2 x h1 h2

variable (fuel : Nat) (init junk : Nat → Nat → K) (init3 junk3 : Nat → Nat → Nat → K)

/-- A point of a curve; where `evaluate` gives no number the value does not matter. -/
def cpoint (c : Curve K) (t : K) : V K :=
  ⟨(c.evaluate fuel t 0).getD 0, (c.evaluate fuel t 1).getD 0, (c.evaluate fuel t 2).getD 0⟩

/-- A point of a surface. -/
def spoint (S : Surf K) (u v : K) : V K :=
  ⟨(S.evaluate fuel u v 0).getD 0, (S.evaluate fuel u v 1).getD 0, (S.evaluate fuel u v 2).getD 0⟩

/-- NURBS curves and surfaces with the operations of nurbs.pyx (multiplicities counted exactly); the separation tests, Newton's
method and the test for degenerate points are any functions. -/
def nurbsEnv (sep : Curve K → Surf K → Bool) (sph : Curve K → Surf K → V K → Bool) (newton : Curve K → Surf K → Option (K × K × K))
    (degen : Curve K → Surf K → K × K × K → Bool) : Env K (Curve K) (Surf K) where
  cint c := (c.U 0, c.U (c.m - 1))
  sint S := ((S.U 0, S.U (S.mu - 1)), (S.V 0, S.V (S.mv - 1)))
  cev := cpoint fuel
  sev := spoint fuel
  split tol c t := (splitCurve c fuel (fun _ => 0) tol init junk t).join
  subdiv tol S u v := (subdivide S fuel (fun _ => 0) tol init3 junk3 u v).join
  sep := sep
  sph := sph
  newton := newton
  degen := degen

/-- Curves: clamped, not periodic, all weights equal and not 0. -/
structure OkC (fuel : Nat) (c : Curve K) : Prop where
  clean : Clean c
  per : c.periodic = false
  fuel : c.n + c.degree + 1 ≤ fuel
  weights : ∃ w, w ≠ 0 ∧ ∀ l, l < c.n → c.P l 3 = w

/-- Surfaces: clamped in both directions, any weights. -/
structure OkS (fuel : Nat) (S : Surf K) : Prop where
  u : Clean S.uCurve
  v : Clean S.vCurve
  fuelU : S.nu + S.pu + 1 ≤ fuel
  fuelV : S.nv + S.pv + 1 ≤ fuel

theorem OkS.valid {fuel : Nat} {S : Surf K} (h : OkS fuel S) : SValid S := ⟨h.u.valid, h.v.valid⟩

theorem cpoint_eq {fuel : Nat} {c : Curve K} (hc : OkC fuel c) {x : K} (h1 : c.U 0 ≤ x) (h2 : x ≤ c.U (c.m - 1)) :
    cpoint fuel c x = ⟨specVal c (fun l => c.P l 0) x, specVal c (fun l => c.P l 1) x, specVal c (fun l => c.P l 2) x⟩ := by
  obtain ⟨w, hw0, hw⟩ := hc.weights
  have e := evaluate_equal_weights c hc.clean.valid hc.per w hw0 hw fuel (by have := hc.fuel; omega) x
    (by rw [← hc.clean.start]; exact h1) (by rw [← hc.clean.stop]; exact h2)
  rw [cpoint, e 0, e 1, e 2]
  rfl

theorem join_some {α : Type} {o : Option (Option α)} {a : α} (h : o.join = some a) : o = some (some a) := by
  cases o with
  | none => simp at h
  | some x => simp at h; rw [h]

theorem clean_congr {c d : Curve K} (hc : Clean c) (h1 : d.degree = c.degree) (h2 : d.n = c.n) (h3 : d.m = c.m) (h4 : d.U = c.U) :
    Clean d := by
  obtain ⟨⟨a1, a2, a3, a4⟩, b, e, f, g⟩ := hc
  refine ⟨⟨?_, ?_, ?_, ?_⟩, ?_, ?_, ?_, ?_⟩
  · rw [h1, h2]; exact a1
  · rw [h1, h2, h3]; exact a2
  · rw [h3, h4]; exact a3
  · rw [h2, h4]; exact a4
  · intro j; rw [h1, h2, h3, h4]; exact b j
  · rw [h1]; exact e
  · rw [h1, h4]; exact f
  · rw [h2, h3, h4]; exact g

/-- A piece of a surface in the sense of `SubS`, with its domain. -/
structure SPiece (fuel : Nat) (S T : Surf K) (a b c d : K) : Prop where
  ok : OkS fuel T
  u0 : T.U 0 = a
  u1 : T.U (T.mu - 1) = b
  v0 : T.V 0 = c
  v1 : T.V (T.mv - 1) = d
  val : ∀ u v, a ≤ u → u ≤ b → c ≤ v → v ≤ d → ∀ col, T.evaluate fuel u v col = S.evaluate fuel u v col

theorem splitU_ok {fuel : Nat} {S : Surf K} (hS : OkS fuel S) {tol u : K} {S1 S2 : Surf K}
    (h : splitU S fuel (fun _ => 0) tol init3 junk3 u = some (some (S1, S2))) :
    SPiece fuel S S1 (S.U 0) u (S.V 0) (S.V (S.mv - 1)) ∧ SPiece fuel S S2 u (S.U (S.mu - 1)) (S.V 0) (S.V (S.mv - 1)) ∧
      S.U 0 < u ∧ u < S.U (S.mu - 1) := by
  have hfu := hS.fuelU
  have hfv := hS.fuelV
  rw [splitU_eq] at h
  cases e : splitCurve S.uCurve fuel (fun _ => 0) tol (curry3 init3) (curry3 junk3) u with
  | none => simp [e] at h
  | some o =>
    cases o with
    | none => simp [e] at h
    | some cc =>
      obtain ⟨c1, c2⟩ := cc
      simp only [e, Option.map_some, Option.some.injEq, Prod.mk.injEq] at h
      obtain ⟨rfl, rfl⟩ := h
      have P := split_clean S.uCurve hS.u fuel hfu tol u _ _ e
      have n1 : c1.n ≤ S.nu := P.n1
      have n2 : c2.n ≤ S.nu := P.n2
      have gd1 : c1.degree = S.pu := P.deg1
      have gd2 : c2.degree = S.pu := P.deg2
      have s0 : S.V 0 = S.V S.pv := hS.v.start
      have s1 : S.V (S.mv - 1) = S.V S.nv := hS.v.stop
      have r0 : S.U 0 = S.U S.pu := hS.u.start
      have r1 : S.U (S.mu - 1) = S.U S.nu := hS.u.stop
      have i1 : S.U 0 < u := P.inside.1
      have i2 : u < S.U (S.mu - 1) := P.inside.2
      have cl1 : Clean (S.withU c1).uCurve := clean_congr P.clean1 gd1.symm rfl rfl rfl
      have cl2 : Clean (S.withU c2).uCurve := clean_congr P.clean2 gd2.symm rfl rfl rfl
      have clv1 : Clean (S.withU c1).vCurve := clean_congr hS.v rfl rfl rfl rfl
      have clv2 : Clean (S.withU c2).vCurve := clean_congr hS.v rfl rfl rfl rfl
      have q1 := (piece_u S hS.valid fuel (by omega) (by omega) c1 (S.U S.pu) u le_rfl (by rw [← r1]; exact i2.le)
        ⟨P.clean1.valid, P.deg1, P.per1, by show c1.n ≤ S.nu + S.pu; omega, by rw [← P.clean1.start, P.lo1]; exact r0,
          by rw [← P.clean1.stop, P.hi1], fun x h1 h2 => P.val1 x (by show S.U 0 ≤ x; rw [r0]; exact h1) h2⟩).1
      have q2 := (piece_u S hS.valid fuel (by omega) (by omega) c2 u (S.U S.nu) (by rw [← r0]; exact i1.le) le_rfl
        ⟨P.clean2.valid, P.deg2, P.per2, by show c2.n ≤ S.nu + S.pu; omega, by rw [← P.clean2.start, P.lo2],
          by rw [← P.clean2.stop, P.hi2]; exact r1, fun x h1 h2 => P.val2 x h1 (by show x ≤ S.U (S.mu - 1); rw [r1]; exact h2)⟩).1
      refine ⟨⟨⟨cl1, clv1, by show c1.n + S.pu + 1 ≤ fuel; omega, hfv⟩, P.lo1, P.hi1, rfl, rfl, ?_⟩,
        ⟨⟨cl2, clv2, by show c2.n + S.pu + 1 ≤ fuel; omega, hfv⟩, P.lo2, P.hi2, rfl, rfl, ?_⟩, i1, i2⟩
      · intro x y hx1 hx2 hy1 hy2
        rw [r0] at hx1
        rw [s0] at hy1
        rw [s1] at hy2
        exact q1.2.2.2.2.2.2.2 x y hx1 hx2 hy1 hy2
      · intro x y hx1 hx2 hy1 hy2
        rw [r1] at hx2
        rw [s0] at hy1
        rw [s1] at hy2
        exact q2.2.2.2.2.2.2.2 x y hx1 hx2 hy1 hy2

theorem splitV_ok {fuel : Nat} {S : Surf K} (hS : OkS fuel S) {tol v : K} {S1 S2 : Surf K}
    (h : splitV S fuel (fun _ => 0) tol init3 junk3 v = some (some (S1, S2))) :
    SPiece fuel S S1 (S.U 0) (S.U (S.mu - 1)) (S.V 0) v ∧ SPiece fuel S S2 (S.U 0) (S.U (S.mu - 1)) v (S.V (S.mv - 1)) ∧
      S.V 0 < v ∧ v < S.V (S.mv - 1) := by
  have hfu := hS.fuelU
  have hfv := hS.fuelV
  rw [splitV_eq] at h
  cases e : splitCurve S.vCurve fuel (fun _ => 0) tol (curry3' init3) (curry3' junk3) v with
  | none => simp [e] at h
  | some o =>
    cases o with
    | none => simp [e] at h
    | some cc =>
      obtain ⟨c1, c2⟩ := cc
      simp only [e, Option.map_some, Option.some.injEq, Prod.mk.injEq] at h
      obtain ⟨rfl, rfl⟩ := h
      have P := split_clean S.vCurve hS.v fuel hfv tol v _ _ e
      have n1 : c1.n ≤ S.nv := P.n1
      have n2 : c2.n ≤ S.nv := P.n2
      have gd1 : c1.degree = S.pv := P.deg1
      have gd2 : c2.degree = S.pv := P.deg2
      have s0 : S.U 0 = S.U S.pu := hS.u.start
      have s1 : S.U (S.mu - 1) = S.U S.nu := hS.u.stop
      have r0 : S.V 0 = S.V S.pv := hS.v.start
      have r1 : S.V (S.mv - 1) = S.V S.nv := hS.v.stop
      have i1 : S.V 0 < v := P.inside.1
      have i2 : v < S.V (S.mv - 1) := P.inside.2
      have cl1 : Clean (S.withV c1).vCurve := clean_congr P.clean1 gd1.symm rfl rfl rfl
      have cl2 : Clean (S.withV c2).vCurve := clean_congr P.clean2 gd2.symm rfl rfl rfl
      have clv1 : Clean (S.withV c1).uCurve := clean_congr hS.u rfl rfl rfl rfl
      have clv2 : Clean (S.withV c2).uCurve := clean_congr hS.u rfl rfl rfl rfl
      have q1 := (piece_v S hS.valid fuel (by omega) (by omega) c1 (S.V S.pv) v le_rfl (by rw [← r1]; exact i2.le)
        ⟨P.clean1.valid, P.deg1, P.per1, by show c1.n ≤ S.nv + S.pv; omega, by rw [← P.clean1.start, P.lo1]; exact r0,
          by rw [← P.clean1.stop, P.hi1], fun x h1 h2 => P.val1 x (by show S.V 0 ≤ x; rw [r0]; exact h1) h2⟩).1
      have q2 := (piece_v S hS.valid fuel (by omega) (by omega) c2 v (S.V S.nv) (by rw [← r0]; exact i1.le) le_rfl
        ⟨P.clean2.valid, P.deg2, P.per2, by show c2.n ≤ S.nv + S.pv; omega, by rw [← P.clean2.start, P.lo2],
          by rw [← P.clean2.stop, P.hi2]; exact r1, fun x h1 h2 => P.val2 x h1 (by show x ≤ S.V (S.mv - 1); rw [r1]; exact h2)⟩).1
      refine ⟨⟨⟨clv1, cl1, hfu, by show c1.n + S.pv + 1 ≤ fuel; omega⟩, rfl, rfl, P.lo1, P.hi1, ?_⟩,
        ⟨⟨clv2, cl2, hfu, by show c2.n + S.pv + 1 ≤ fuel; omega⟩, rfl, rfl, P.lo2, P.hi2, ?_⟩, i1, i2⟩
      · intro x y hx1 hx2 hy1 hy2
        rw [s0] at hx1
        rw [s1] at hx2
        rw [r0] at hy1
        exact q1.2.2.2.2.2.2.2 x y hx1 hx2 hy1 hy2
      · intro x y hx1 hx2 hy1 hy2
        rw [s0] at hx1
        rw [s1] at hx2
        rw [r1] at hy2
        exact q2.2.2.2.2.2.2.2 x y hx1 hx2 hy1 hy2

theorem subdivide_ok {fuel : Nat} {S : Surf K} (hS : OkS fuel S) {tol u v : K} {q : Surf K × Surf K × Surf K × Surf K}
    (h : subdivide S fuel (fun _ => 0) tol init3 junk3 u v = some (some q)) :
    SPiece fuel S q.1 (S.U 0) u (S.V 0) v ∧ SPiece fuel S q.2.1 (S.U 0) u v (S.V (S.mv - 1)) ∧
    SPiece fuel S q.2.2.1 u (S.U (S.mu - 1)) (S.V 0) v ∧ SPiece fuel S q.2.2.2 u (S.U (S.mu - 1)) v (S.V (S.mv - 1)) ∧
    (S.U 0 < u ∧ u < S.U (S.mu - 1)) ∧ S.V 0 < v ∧ v < S.V (S.mv - 1) := by
  rw [subdivide] at h
  cases e : splitU S fuel (fun _ => 0) tol init3 junk3 u with
  | none => simp [e] at h
  | some o =>
    cases o with
    | none => simp [e] at h
    | some s =>
      obtain ⟨A, B⟩ := s
      simp only [e] at h
      obtain ⟨PA, PB, i1, i2⟩ := splitU_ok init3 junk3 hS e
      cases e1 : splitV A fuel (fun _ => 0) tol init3 junk3 v with
      | none => simp [e1] at h
      | some o =>
        cases o with
        | none => simp [e1] at h
        | some s =>
          obtain ⟨A1, A2⟩ := s
          simp only [e1] at h
          obtain ⟨PA1, PA2, j1, j2⟩ := splitV_ok init3 junk3 PA.ok e1
          cases e2 : splitV B fuel (fun _ => 0) tol init3 junk3 v with
          | none => simp [e2] at h
          | some o =>
            cases o with
            | none => simp [e2] at h
            | some s =>
              obtain ⟨B1, B2⟩ := s
              simp only [e2, Option.some.injEq] at h
              obtain ⟨PB1, PB2, k1, k2⟩ := splitV_ok init3 junk3 PB.ok e2
              subst h
              rw [PA.v0] at j1
              rw [PA.v1] at j2
              rw [PA.u0, PA.u1, PA.v0] at PA1
              rw [PA.u0, PA.u1, PA.v1] at PA2
              rw [PB.u0, PB.u1, PB.v0] at PB1
              rw [PB.u0, PB.u1, PB.v1] at PB2
              refine ⟨⟨PA1.ok, PA1.u0, PA1.u1, PA1.v0, PA1.v1, ?_⟩, ⟨PA2.ok, PA2.u0, PA2.u1, PA2.v0, PA2.v1, ?_⟩,
                ⟨PB1.ok, PB1.u0, PB1.u1, PB1.v0, PB1.v1, ?_⟩, ⟨PB2.ok, PB2.u0, PB2.u1, PB2.v0, PB2.v1, ?_⟩, ⟨i1, i2⟩, j1, j2⟩
              · intro x y a b c d col
                rw [PA1.val x y a b c d col]; exact PA.val x y a b c (d.trans j2.le) col
              · intro x y a b c d col
                rw [PA2.val x y a b c d col]; exact PA.val x y a b (j1.le.trans c) d col
              · intro x y a b c d col
                rw [PB1.val x y a b c d col]; exact PB.val x y a b c (d.trans j2.le) col
              · intro x y a b c d col
                rw [PB2.val x y a b c d col]; exact PB.val x y a b (j1.le.trans c) d col

/-- Splitting of NURBS curves and surfaces meets `Spec`. -/
theorem nurbs_spec (sep : Curve K → Surf K → Bool) (sph : Curve K → Surf K → V K → Bool)
    (newton : Curve K → Surf K → Option (K × K × K)) (degen : Curve K → Surf K → K × K × K → Bool)
    (hd : ∀ c' c s' s t u v, SubC (nurbsEnv fuel init junk init3 junk3 sep sph newton degen) c' c →
      SubS (nurbsEnv fuel init junk init3 junk3 sep sph newton degen) s' s → In (c'.U 0, c'.U (c'.m - 1)) t →
      In (s'.U 0, s'.U (s'.mu - 1)) u → In (s'.V 0, s'.V (s'.mv - 1)) v → degen c' s' (t, u, v) = degen c s (t, u, v)) :
    Spec (nurbsEnv fuel init junk init3 junk3 sep sph newton degen) (OkC fuel) (OkS fuel) where
  split tol c t c1 c2 hc h := by
    have P := split_clean c hc.clean fuel hc.fuel tol t init junk (join_some h)
    obtain ⟨w, hw0, hw⟩ := hc.weights
    obtain ⟨w1, w2⟩ := P.w w hw
    have hfu := hc.fuel
    have n1 := P.n1
    have n2 := P.n2
    have d1 := P.deg1
    have d2 := P.deg2
    have o1 : OkC fuel c1 := ⟨P.clean1, P.per1, by omega, w, hw0, w1⟩
    have o2 : OkC fuel c2 := ⟨P.clean2, P.per2, by omega, w, hw0, w2⟩
    refine ⟨o1, o2, ⟨P.lo1.ge, ?_, ?_⟩, ⟨?_, P.hi2.le, ?_⟩, ?_, ?_⟩
    · show c1.U (c1.m - 1) ≤ c.U (c.m - 1); rw [P.hi1]; exact P.inside.2.le
    · rintro x ⟨h1, h2⟩
      show cpoint fuel c1 x = cpoint fuel c x
      have h1' : c1.U 0 ≤ x := h1
      have h2' : x ≤ c1.U (c1.m - 1) := h2
      rw [cpoint_eq o1 h1' h2']
      rw [P.lo1] at h1'
      rw [P.hi1] at h2'
      rw [cpoint_eq hc h1' (h2'.trans P.inside.2.le), P.val1 x h1' h2', P.val1 x h1' h2', P.val1 x h1' h2']
    · show c.U 0 ≤ c2.U 0; rw [P.lo2]; exact P.inside.1.le
    · rintro x ⟨h1, h2⟩
      show cpoint fuel c2 x = cpoint fuel c x
      have h1' : c2.U 0 ≤ x := h1
      have h2' : x ≤ c2.U (c2.m - 1) := h2
      rw [cpoint_eq o2 h1' h2']
      rw [P.lo2] at h1'
      rw [P.hi2] at h2'
      rw [cpoint_eq hc (P.inside.1.le.trans h1') h2', P.val2 x h1' h2', P.val2 x h1' h2', P.val2 x h1' h2']
    · show (c1.U 0, c1.U (c1.m - 1)) = (c.U 0, t); rw [P.lo1, P.hi1]
    · show (c2.U 0, c2.U (c2.m - 1)) = (t, c.U (c.m - 1)); rw [P.lo2, P.hi2]
  subdiv tol s u v q hs h := by
    obtain ⟨A, B, C, D, ⟨i1, i2⟩, j1, j2⟩ := subdivide_ok init3 junk3 hs (join_some h)
    have mk : ∀ (T : Surf K) (a b c d : K), SPiece fuel s T a b c d → s.U 0 ≤ a → b ≤ s.U (s.mu - 1) → s.V 0 ≤ c → d ≤ s.V (s.mv - 1) →
        SubS (nurbsEnv fuel init junk init3 junk3 sep sph newton degen) T s := by
      intro T a b c d p h1 h2 h3 h4
      refine ⟨?_, ?_, ?_, ?_, ?_⟩
      · show s.U 0 ≤ T.U 0; rw [p.u0]; exact h1
      · show T.U (T.mu - 1) ≤ s.U (s.mu - 1); rw [p.u1]; exact h2
      · show s.V 0 ≤ T.V 0; rw [p.v0]; exact h3
      · show T.V (T.mv - 1) ≤ s.V (s.mv - 1); rw [p.v1]; exact h4
      · rintro x y ⟨x1, x2⟩ ⟨y1, y2⟩
        have x1' : T.U 0 ≤ x := x1
        have x2' : x ≤ T.U (T.mu - 1) := x2
        have y1' : T.V 0 ≤ y := y1
        have y2' : y ≤ T.V (T.mv - 1) := y2
        rw [p.u0] at x1'
        rw [p.u1] at x2'
        rw [p.v0] at y1'
        rw [p.v1] at y2'
        show spoint fuel T x y = spoint fuel s x y
        rw [spoint, spoint, p.val x y x1' x2' y1' y2', p.val x y x1' x2' y1' y2', p.val x y x1' x2' y1' y2']
    have im : ∀ (T : Surf K) (a b c d : K), SPiece fuel s T a b c d →
        ((T.U 0, T.U (T.mu - 1)), (T.V 0, T.V (T.mv - 1))) = ((a, b), (c, d)) := by
      intro T a b c d p
      rw [p.u0, p.u1, p.v0, p.v1]
    exact ⟨⟨A.ok, B.ok, C.ok, D.ok⟩, ⟨mk _ _ _ _ _ A le_rfl i2.le le_rfl j2.le, mk _ _ _ _ _ B le_rfl i2.le j1.le le_rfl,
      mk _ _ _ _ _ C i1.le le_rfl le_rfl j2.le, mk _ _ _ _ _ D i1.le le_rfl j1.le le_rfl⟩, im _ _ _ _ _ A, im _ _ _ _ _ B,
      im _ _ _ _ _ C, im _ _ _ _ _ D⟩
  degen c' c s' s t u v h1 h2 h3 h4 h5 := hd c' c s' s t u v h1 h2 h3 h4 h5

section
variable (sep : Curve K → Surf K → Bool) (sph : Curve K → Surf K → V K → Bool) (newton : Curve K → Surf K → Option (K × K × K))

/-- **C253 for NURBS**: a clamped curve with equal weights against any clamped surface, whatever Newton's method and the
separation tests answer: every reported entry has parameters in the two domains, is the point `curve.evaluate(t)` and lies
within `tol` of `surface.evaluate(u, v)`. -/
theorem C253_nurbs {tol ptol stol : K} {depth : Nat} {c : Curve K} {S : Surf K} (hc : OkC fuel c) (hS : OkS fuel S) {r : List (Hit K)}
    (h : nurbsCsx (nurbsEnv fuel init junk init3 junk3 sep sph newton fun _ _ _ => false) tol ptol stol depth c S = some (some r)) :
    ∀ x ∈ r, (c.U c.degree ≤ x.t ∧ x.t ≤ c.U c.n) ∧ InDom S x.u x.v ∧ x.pt = cpoint fuel c x.t ∧
      dist2 (cpoint fuel c x.t) (spoint fuel S x.u x.v) ≤ tol ^ 2 := by
  intro x hx
  have g := C253_sound (nurbs_spec fuel init junk init3 junk3 sep sph newton _ (fun _ _ _ _ _ _ _ _ _ _ _ _ => rfl)) hc hS h x hx
  have gt : c.U 0 ≤ x.t ∧ x.t ≤ c.U (c.m - 1) := g.t
  have gu : S.U 0 ≤ x.u ∧ x.u ≤ S.U (S.mu - 1) := g.u
  have gv : S.V 0 ≤ x.v ∧ x.v ≤ S.V (S.mv - 1) := g.v
  have a0 : S.U 0 = S.U S.pu := hS.u.start
  have a1 : S.U (S.mu - 1) = S.U S.nu := hS.u.stop
  have b0 : S.V 0 = S.V S.pv := hS.v.start
  have b1 : S.V (S.mv - 1) = S.V S.nv := hS.v.stop
  rw [hc.clean.start, hc.clean.stop] at gt
  rw [a0, a1] at gu
  rw [b0, b1] at gv
  exact ⟨gt, ⟨gu.1, gu.2, gv.1, gv.2⟩, g.pt, g.close⟩

/-- **C254 for NURBS**: `nurbs_csx` of a clamped curve with all weights 1 and a clamped surface ends, for all tolerances greater
than 0, whatever Newton's method and the separation tests answer. -/
theorem C254_nurbs [FloorRing K] [Archimedean K] {tol ptol stol : K} (ht : 0 < tol) (hp : 0 < ptol) {c : Curve K} {S : Surf K}
    (hc : OkC fuel c) (hw : ∀ l, l < c.n → c.P l 3 = 1) (hS : OkS fuel S) :
    ∃ depth, ∀ d, depth ≤ d →
      nurbsCsx (nurbsEnv fuel init junk init3 junk3 sep sph newton fun _ _ _ => false) tol ptol stol d c S ≠ none := by
  have hn := hS.valid.u.npos
  have hm : S.mu = S.nu + S.pu + 1 := hS.valid.u.knots
  have hv := hc.clean.valid
  have hf := hc.fuel
  let m : K := |(c.bbox 0).1| + |(c.bbox 0).2| + |(c.bbox 1).1| + |(c.bbox 1).2| + |(c.bbox 2).1| + |(c.bbox 2).2|
  refine C254_bounded (nurbs_spec fuel init junk init3 junk3 sep sph newton _ (fun _ _ _ _ _ _ _ _ _ _ _ _ => rfl)) ht hp hc hS
    (a := ⟨0, 0, 0⟩) (w := m) (fun t hti => ?_) (hS.valid.u.mono _ _ (by omega) (by show S.mu - 1 < S.mu; omega))
  have h1 : c.U 0 ≤ t := hti.1
  have h2 : t ≤ c.U (c.m - 1) := hti.2
  rw [hc.clean.start] at h1
  rw [hc.clean.stop] at h2
  have key : ∀ col, |(c.evaluate fuel t col).getD 0| ≤ |(c.bbox col).1| + |(c.bbox col).2| := by
    intro col
    obtain ⟨y, e, y1, y2⟩ := C35_bbox_contains_curve_partial c hv hc.per fuel (by omega) t h1 h2 hw col
    rw [e, Option.getD_some, abs_le]
    have := neg_abs_le (c.bbox col).1
    have := le_abs_self (c.bbox col).2
    have := abs_nonneg (c.bbox col).1
    have := abs_nonneg (c.bbox col).2
    constructor <;> linarith
  have k0 := key 0
  have k1 := key 1
  have k2 := key 2
  have p1 := abs_nonneg (c.bbox 0).1
  have p2 := abs_nonneg (c.bbox 0).2
  have p3 := abs_nonneg (c.bbox 1).1
  have p4 := abs_nonneg (c.bbox 1).2
  have p5 := abs_nonneg (c.bbox 2).1
  have p6 := abs_nonneg (c.bbox 2).2
  show |(c.evaluate fuel t 0).getD 0 - 0| ≤ m ∧ |(c.evaluate fuel t 1).getD 0 - 0| ≤ m ∧ |(c.evaluate fuel t 2).getD 0 - 0| ≤ m
  rw [sub_zero, sub_zero, sub_zero]
  refine ⟨?_, ?_, ?_⟩
  all_goals
    show _ ≤ |(c.bbox 0).1| + |(c.bbox 0).2| + |(c.bbox 1).1| + |(c.bbox 1).2| + |(c.bbox 2).1| + |(c.bbox 2).2|
    linarith
end

end Verif.Csx
