import Verif.March.Model2
import Verif.March.Props2
import Mathlib.Analysis.InnerProductSpace.PiL2
import Mathlib.LinearAlgebra.CrossProduct

/-! # C221: `marching_intersection_curve_points`, C222: `marching_implicit_curve_points` -/

set_option linter.unusedSectionVars false

noncomputable section

open scoped InnerProductSpace Classical

namespace Verif.March

variable {E : Type*} [NormedAddCommGroup E] [InnerProductSpace ℝ E]

/-! ## For every solver -/

/-- An invariant of the loop: the list has a property which is kept by adding any point accepted by the loop. -/
theorem marchLoop_inv (solve : E → Option (Hit E)) (cross : E → E → E) (step : ℝ) (outside : E → Prop) (maxPts : Option ℕ)
    (endPt : E) (I : List E → E → Prop) (fuel : ℕ) : ∀ (pts : List E) (p g1 g2 : E) (l : List E),
      I pts p →
      (∀ pts p (h : Hit E) x, I pts p → (∀ m, maxPts = some m → pts.length < m) → ¬outside p → solve x = some h →
        ¬‖h.q - endPt‖ < step / 2 → I (pts ++ [h.q]) h.q) →
      marchLoop solve cross step outside maxPts endPt fuel pts p g1 g2 = .done l → ∃ p, I l p := by
  induction fuel with
  | zero =>
    intro pts p g1 g2 l hI hstep h
    unfold marchLoop at h
    dsimp only at h
    split_ifs at h with a b c
    · cases h; exact ⟨p, hI⟩
    · cases h; exact ⟨p, hI⟩
    · cases hs : solve (p + step • (‖cross g1 g2‖⁻¹ • cross g1 g2)) with
      | none => rw [hs] at h; cases h
      | some r =>
        rw [hs] at h
        dsimp only at h
        generalize hq : (if pts.length > 1 ∧ ‖r.q - pts.getD (pts.length - 2) 0‖ < step / 2 then
          solve (p - step • (‖cross g1 g2‖⁻¹ • cross g1 g2)) else some r) = o at h
        cases o with
        | none => cases h
        | some r' =>
          dsimp only at h
          split_ifs at h
          · cases h; exact ⟨p, hI⟩
    · cases h; exact ⟨p, hI⟩
  | succ n ih =>
    intro pts p g1 g2 l hI hstep h
    unfold marchLoop at h
    dsimp only at h
    split_ifs at h with a b c
    · cases h; exact ⟨p, hI⟩
    · cases h; exact ⟨p, hI⟩
    · cases hs : solve (p + step • (‖cross g1 g2‖⁻¹ • cross g1 g2)) with
      | none => rw [hs] at h; cases h
      | some r =>
        rw [hs] at h
        dsimp only at h
        generalize hq : (if pts.length > 1 ∧ ‖r.q - pts.getD (pts.length - 2) 0‖ < step / 2 then
          solve (p - step • (‖cross g1 g2‖⁻¹ • cross g1 g2)) else some r) = o at h
        cases o with
        | none => cases h
        | some r' =>
          dsimp only at h
          split_ifs at h with d
          · cases h; exact ⟨p, hI⟩
          · have hx : ∃ x, solve x = some r' := by
              split_ifs at hq
              · exact ⟨_, hq⟩
              · exact ⟨_, by rw [hs, hq]⟩
            obtain ⟨x, hx⟩ := hx
            exact ih _ _ _ _ l (hstep pts p r' x hI a b hx d) hstep h
    · cases h; exact ⟨p, hI⟩

theorem march_inv (solve : E → Option (Hit E)) (cross : E → E → E) (step : ℝ) (outside : E → Prop) (maxPts : Option ℕ)
    (start : E) (endPt : Option E) (fuel : ℕ) (l : List E)
    (h : march solve cross step outside maxPts start endPt fuel = .done l) :
    ∃ h0, solve start = some h0 ∧ ∀ I : List E → E → Prop, I [h0.q] h0.q →
      (∀ pts p (h : Hit E) x, I pts p → (∀ m, maxPts = some m → pts.length < m) → ¬outside p → solve x = some h →
        ¬‖h.q - endPt.getD h0.q‖ < step / 2 → I (pts ++ [h.q]) h.q) → ∃ p, I l p := by
  unfold march at h
  cases hs : solve start with
  | none => rw [hs] at h; cases h
  | some h0 =>
    rw [hs] at h
    exact ⟨h0, rfl, fun I h1 h2 => marchLoop_inv solve cross step outside maxPts _ I fuel _ _ _ _ l h1 h2 h⟩

/-- **C221, points.**  The first point is the solution found from the start, every point is a solution returned by
`intersection_curve_point`, and all but the first keep half a step away from the end point. -/
theorem C221_points (solve : E → Option (Hit E)) (cross : E → E → E) (step : ℝ) (outside : E → Prop) (maxPts : Option ℕ)
    (start : E) (endPt : Option E) (fuel : ℕ) (l : List E)
    (h : march solve cross step outside maxPts start endPt fuel = .done l) :
    ∃ h0 rest, solve start = some h0 ∧ l = h0.q :: rest ∧
      ∀ q ∈ rest, (∃ x r, solve x = some r ∧ r.q = q) ∧ step / 2 ≤ ‖q - endPt.getD h0.q‖ := by
  obtain ⟨h0, hs, hI⟩ := march_inv solve cross step outside maxPts start endPt fuel l h
  obtain ⟨p, hp⟩ := hI (fun l _ => ∃ rest, l = h0.q :: rest ∧
      ∀ q ∈ rest, (∃ x r, solve x = some r ∧ r.q = q) ∧ step / 2 ≤ ‖q - endPt.getD h0.q‖) ⟨[], rfl, by simp⟩ (by
    rintro pts p r x ⟨rest, rfl, hr⟩ - - hx hd
    refine ⟨rest ++ [r.q], by simp, ?_⟩
    intro q hq
    rcases List.mem_append.1 hq with hq | hq
    · exact hr q hq
    · obtain rfl : q = r.q := by simpa using hq
      exact ⟨⟨x, r, hx, rfl⟩, not_lt.1 hd⟩)
  obtain ⟨rest, hl, hr⟩ := hp
  exact ⟨h0, rest, hs, hl, hr⟩

/-- **C221, number.**  At most `max_points` points are returned (one if `max_points` is 0). -/
theorem C221_count (solve : E → Option (Hit E)) (cross : E → E → E) (step : ℝ) (outside : E → Prop) (m : ℕ)
    (start : E) (endPt : Option E) (fuel : ℕ) (l : List E)
    (h : march solve cross step outside (some m) start endPt fuel = .done l) : l.length ≤ max 1 m := by
  obtain ⟨h0, hs, hI⟩ := march_inv solve cross step outside (some m) start endPt fuel l h
  obtain ⟨p, hp⟩ := hI (fun l _ => l.length ≤ max 1 m) (by simp) (by
    rintro pts p r x h1 h2 - - -
    have := h2 m rfl
    simp only [List.length_append, List.length_singleton]
    omega)
  exact hp

/-- **C221, bounds (partial).**  Full claim: all points are within `bounds`.  Proved for all but the last. -/
theorem C221_bounds_partial (solve : E → Option (Hit E)) (cross : E → E → E) (step : ℝ) (outside : E → Prop) (maxPts : Option ℕ)
    (start : E) (endPt : Option E) (fuel : ℕ) (l : List E)
    (h : march solve cross step outside maxPts start endPt fuel = .done l) : ∀ q ∈ l.dropLast, ¬outside q := by
  obtain ⟨h0, hs, hI⟩ := march_inv solve cross step outside maxPts start endPt fuel l h
  obtain ⟨p, hp⟩ := hI (fun l p => (∃ r, l = r ++ [p]) ∧ ∀ q ∈ l.dropLast, ¬outside q) ⟨⟨[], rfl⟩, by simp⟩ (by
    rintro pts p r x ⟨⟨r', rfl⟩, h1⟩ - ho - -
    refine ⟨⟨_, rfl⟩, ?_⟩
    rw [List.dropLast_concat] at h1 ⊢
    intro q hq
    rcases List.mem_append.1 hq with hq | hq
    · exact h1 q hq
    · obtain rfl : q = p := by simpa using hq
      exact ho)
  exact hp.2

/-! ## On a line -/

/-- `intersection_curve_point` for two planes. -/
def planeSolver (n1 n2 : E) (c1 c2 tol : ℝ) (maxIter : ℕ) (x : E) : Option (Hit E) :=
  interPoint (lin n1 c1) (lin n2 c2) (fun _ => n1) (fun _ => n2) tol maxIter false x

/-- The points `p + i * step * t`, `i < k`. -/
def linePts (p t : E) (step : ℝ) (k : ℕ) : List E := (List.range k).map fun i : ℕ => p + ((i : ℝ) * step) • t

theorem linePts_succ (p t : E) (step : ℝ) (k : ℕ) : linePts p t step (k + 1) = linePts p t step k ++ [p + ((k : ℝ) * step) • t] := by
  simp [linePts, List.range_succ]

theorem planeSolver_on (n1 n2 : E) (h2 : n2 ≠ 0) (h1 : ∀ t : ℝ, n1 ≠ t • n2) (c1 c2 tol : ℝ) (ht : 0 ≤ tol) (maxIter : ℕ)
    (x : E) (x1 : lin n1 c1 x = 0) (x2 : lin n2 c2 x = 0) :
    ∃ h, planeSolver n1 n2 c1 c2 tol maxIter x = some h ∧ h.q = x ∧ h.g1 = n1 ∧ h.g2 = n2 := by
  obtain ⟨r, hr, -, -, -, g1, g2, hm⟩ := C220_planes n1 n2 h2 h1 c1 c2 tol ht maxIter false x
  refine ⟨r, hr, ?_, g1, g2⟩
  have := hm x x1 x2
  rw [sub_self, norm_zero] at this
  have := norm_le_zero_iff.1 this
  exact (sub_eq_zero.1 this).symm

/-- The situation of a march along the common line of two planes. -/
structure OnLine (n1 n2 : E) (c1 c2 : ℝ) (cross : E → E → E) (p : E) : Prop where
  ne : n2 ≠ 0
  indep : ∀ t : ℝ, n1 ≠ t • n2
  cr : cross n1 n2 ≠ 0
  o1 : ⟪n1, cross n1 n2⟫_ℝ = 0
  o2 : ⟪n2, cross n1 n2⟫_ℝ = 0
  p1 : lin n1 c1 p = 0
  p2 : lin n2 c2 p = 0

/-- The unit tangent. -/
def tau (cross : E → E → E) (n1 n2 : E) : E := ‖cross n1 n2‖⁻¹ • cross n1 n2

theorem norm_tau (cross : E → E → E) (n1 n2 : E) (h : cross n1 n2 ≠ 0) : ‖tau cross n1 n2‖ = 1 := by
  unfold tau
  rw [norm_smul, norm_inv, norm_norm, inv_mul_cancel₀ (norm_ne_zero_iff.2 h)]

theorem lin_along (n d : E) (c s : ℝ) (p : E) (hp : lin n c p = 0) (hd : ⟪n, d⟫_ℝ = 0) : lin n c (p + s • d) = 0 := by
  unfold lin at hp ⊢
  rw [inner_add_right, inner_smul_right, hd]
  linarith

/-- One round of the loop on a line. -/
theorem line_round (n1 n2 : E) (c1 c2 tol : ℝ) (ht : 0 ≤ tol) (maxIter : ℕ) (cross : E → E → E) (p : E)
    (H : OnLine n1 n2 c1 c2 cross p) (step : ℝ) (hs : 0 < step) (outside : E → Prop) (maxPts : Option ℕ) (e : E) (fuel i : ℕ) :
    marchLoop (planeSolver n1 n2 c1 c2 tol maxIter) cross step outside maxPts e fuel
      (linePts p (tau cross n1 n2) step (i + 1)) (p + ((i : ℝ) * step) • tau cross n1 n2) n1 n2 =
    if (∀ m, maxPts = some m → i + 1 < m) then
      if outside (p + ((i : ℝ) * step) • tau cross n1 n2) then .done (linePts p (tau cross n1 n2) step (i + 1))
      else if ‖(p + (((i + 1 : ℕ) : ℝ) * step) • tau cross n1 n2) - e‖ < step / 2 then
        .done (linePts p (tau cross n1 n2) step (i + 1))
      else match fuel with
        | 0 => .running
        | n + 1 => marchLoop (planeSolver n1 n2 c1 c2 tol maxIter) cross step outside maxPts e n
            (linePts p (tau cross n1 n2) step (i + 2)) (p + (((i + 1 : ℕ) : ℝ) * step) • tau cross n1 n2) n1 n2
    else .done (linePts p (tau cross n1 n2) step (i + 1)) := by
  set t := tau cross n1 n2 with htau
  have hcr : ¬⟪cross n1 n2, cross n1 n2⟫_ℝ = 0 := (inner_self_pos' H.cr).ne'
  have hlen : (linePts p t step (i + 1)).length = i + 1 := by simp [linePts]
  have ot1 : ⟪n1, t⟫_ℝ = 0 := by rw [htau]; unfold tau; rw [inner_smul_right, H.o1, mul_zero]
  have ot2 : ⟪n2, t⟫_ℝ = 0 := by rw [htau]; unfold tau; rw [inner_smul_right, H.o2, mul_zero]
  have hadd : p + ((i : ℝ) * step) • t + step • t = p + (((i + 1 : ℕ) : ℝ) * step) • t := by
    push_cast; module
  obtain ⟨h, e1, e2, e3, e4⟩ := planeSolver_on n1 n2 H.ne H.indep c1 c2 tol ht maxIter
    (p + (((i + 1 : ℕ) : ℝ) * step) • t) (lin_along n1 t c1 _ p H.p1 ot1) (lin_along n2 t c2 _ p H.p2 ot2)
  have hb : ¬((linePts p t step (i + 1)).length > 1 ∧
      ‖h.q - (linePts p t step (i + 1)).getD ((linePts p t step (i + 1)).length - 2) 0‖ < step / 2) := by
    rintro ⟨g1, g2⟩
    rw [hlen] at g1 g2
    have : (linePts p t step (i + 1)).getD (i + 1 - 2) 0 = p + (((i - 1 : ℕ) : ℝ) * step) • t := by
      rw [List.getD_eq_getElem?_getD]
      simp [linePts, List.getElem?_range (show i + 1 - 2 < i + 1 by omega)]
    rw [this, e2, add_sub_add_left_eq_sub, ← sub_smul, norm_smul, norm_tau cross n1 n2 H.cr, mul_one, Real.norm_eq_abs] at g2
    have hi : ((i - 1 : ℕ) : ℝ) = (i : ℝ) - 1 := by
      rw [Nat.cast_sub (by omega)]; simp
    rw [hi] at g2
    push_cast at g2
    have : ((i : ℝ) + 1) * step - ((i : ℝ) - 1) * step = 2 * step := by ring
    rw [this, abs_of_pos (by linarith)] at g2
    linarith
  conv_lhs => unfold marchLoop
  simp only [hlen]
  rw [if_neg hcr]
  change (if _ then (if _ then _ else (match planeSolver n1 n2 c1 c2 tol maxIter (p + ((i : ℝ) * step) • t + step • t) with
    | none => _ | some h => _)) else _) = _
  rw [hadd, e1]
  dsimp only
  rw [hlen] at hb
  rw [if_neg hb]
  dsimp only
  rw [e2, e3, e4, ← linePts_succ]
  cases fuel <;> rfl

theorem march_line (n1 n2 : E) (c1 c2 tol : ℝ) (ht : 0 ≤ tol) (maxIter : ℕ) (cross : E → E → E) (p : E)
    (H : OnLine n1 n2 c1 c2 cross p) (step : ℝ) (outside : E → Prop) (maxPts : Option ℕ) (e : Option E) (fuel : ℕ) :
    march (planeSolver n1 n2 c1 c2 tol maxIter) cross step outside maxPts p e fuel =
      marchLoop (planeSolver n1 n2 c1 c2 tol maxIter) cross step outside maxPts (e.getD p) fuel
        (linePts p (tau cross n1 n2) step (0 + 1)) (p + (((0 : ℕ) : ℝ) * step) • tau cross n1 n2) n1 n2 := by
  obtain ⟨h, e1, e2, e3, e4⟩ := planeSolver_on n1 n2 H.ne H.indep c1 c2 tol ht maxIter p H.p1 H.p2
  unfold march
  rw [e1]
  dsimp only
  rw [e2, e3, e4]
  simp [linePts]

theorem line_dist (cross : E → E → E) (n1 n2 : E) (h : cross n1 n2 ≠ 0) (p : E) (a b : ℝ) :
    ‖(p + a • tau cross n1 n2) - (p + b • tau cross n1 n2)‖ = |a - b| := by
  rw [add_sub_add_left_eq_sub, ← sub_smul, norm_smul, norm_tau cross n1 n2 h, mul_one, Real.norm_eq_abs]

/-- Running on: as long as nothing stops it the loop is at point `i` after `i` rounds. -/
theorem line_run (n1 n2 : E) (c1 c2 tol : ℝ) (ht : 0 ≤ tol) (maxIter : ℕ) (cross : E → E → E) (p : E)
    (H : OnLine n1 n2 c1 c2 cross p) (step : ℝ) (hs : 0 < step) (outside : E → Prop) (maxPts : Option ℕ) (e : E) (k : ℕ) :
    ∀ i fuel, (∀ j, i ≤ j → j < i + k → (∀ m, maxPts = some m → j + 1 < m) ∧
        ¬outside (p + ((j : ℝ) * step) • tau cross n1 n2) ∧
        ¬‖(p + (((j + 1 : ℕ) : ℝ) * step) • tau cross n1 n2) - e‖ < step / 2) →
      marchLoop (planeSolver n1 n2 c1 c2 tol maxIter) cross step outside maxPts e (fuel + k)
        (linePts p (tau cross n1 n2) step (i + 1)) (p + ((i : ℝ) * step) • tau cross n1 n2) n1 n2 =
      marchLoop (planeSolver n1 n2 c1 c2 tol maxIter) cross step outside maxPts e fuel
        (linePts p (tau cross n1 n2) step (i + k + 1)) (p + (((i + k : ℕ) : ℝ) * step) • tau cross n1 n2) n1 n2 := by
  induction k with
  | zero => intro i fuel _; rfl
  | succ k ih =>
    intro i fuel hj
    obtain ⟨j1, j2, j3⟩ := hj i le_rfl (by omega)
    rw [line_round n1 n2 c1 c2 tol ht maxIter cross p H step hs, if_pos j1, if_neg j2, if_neg j3]
    rw [show fuel + (k + 1) = (fuel + k) + 1 from rfl]
    dsimp only
    rw [show i + 2 = (i + 1) + 1 from rfl, ih (i + 1) fuel (fun j a b => hj j (by omega) (by omega))]
    rw [show i + 1 + k = i + (k + 1) by omega]

theorem far_from_start (cross : E → E → E) (n1 n2 : E) (h : cross n1 n2 ≠ 0) (p : E) (step : ℝ) (hs : 0 < step) (a : ℝ)
    (ha : a ≤ step / 2) (j : ℕ) :
    ¬‖(p + (((j + 1 : ℕ) : ℝ) * step) • tau cross n1 n2) - (p + a • tau cross n1 n2)‖ < step / 2 := by
  rw [line_dist cross n1 n2 h, not_lt]
  refine le_trans ?_ (le_abs_self _)
  push_cast
  have : 0 ≤ (j : ℝ) * step := by positivity
  linarith

/-- **C221 on a line.**  For two planes, from a point of their common line, the call with `max_points = m` returns `m`
points of the line at equal distances `step`. -/
theorem C221_line (n1 n2 : E) (c1 c2 tol : ℝ) (ht : 0 ≤ tol) (maxIter : ℕ) (cross : E → E → E) (p : E)
    (H : OnLine n1 n2 c1 c2 cross p) (step : ℝ) (hs : 0 < step) (m : ℕ) (hm : 1 ≤ m) (fuel : ℕ) (hf : m ≤ fuel) :
    march (planeSolver n1 n2 c1 c2 tol maxIter) cross step (fun _ => False) (some m) p none fuel =
      .done (linePts p (tau cross n1 n2) step m) := by
  rw [march_line n1 n2 c1 c2 tol ht maxIter cross p H]
  obtain ⟨k, rfl⟩ : ∃ k, m = k + 1 := ⟨m - 1, by omega⟩
  obtain ⟨f, rfl⟩ : ∃ f, fuel = f + k := ⟨fuel - k, by omega⟩
  rw [line_run n1 n2 c1 c2 tol ht maxIter cross p H step hs]
  · rw [line_round n1 n2 c1 c2 tol ht maxIter cross p H step hs, if_neg (by simp), Nat.zero_add]
  · intro j h1 h2
    refine ⟨fun m' hm' => ?_, by simp, ?_⟩
    · cases hm'; omega
    · have := far_from_start cross n1 n2 H.cr p step hs 0 (by linarith) j
      simpa using this

/-- **C221, end point.**  An end point on the line in front of the start, `k` steps away up to less than half a step, ends
the march: the first `k` points are returned (the end point is not among them). -/
theorem C221_end (n1 n2 : E) (c1 c2 tol : ℝ) (ht : 0 ≤ tol) (maxIter : ℕ) (cross : E → E → E) (p : E)
    (H : OnLine n1 n2 c1 c2 cross p) (step : ℝ) (hs : 0 < step) (k : ℕ) (hk : 1 ≤ k) (a : ℝ) (ha : |k * step - a| < step / 2)
    (fuel : ℕ) (hf : k ≤ fuel) :
    march (planeSolver n1 n2 c1 c2 tol maxIter) cross step (fun _ => False) none p
        (some (p + a • tau cross n1 n2)) fuel = .done (linePts p (tau cross n1 n2) step k) := by
  rw [march_line n1 n2 c1 c2 tol ht maxIter cross p H]
  obtain ⟨k, rfl⟩ : ∃ l, k = l + 1 := ⟨k - 1, by omega⟩
  obtain ⟨f, rfl⟩ : ∃ f, fuel = f + k := ⟨fuel - k, by omega⟩
  rw [line_run n1 n2 c1 c2 tol ht maxIter cross p H step hs]
  · rw [line_round n1 n2 c1 c2 tol ht maxIter cross p H step hs, if_pos (by simp), if_neg (by simp), if_pos, Nat.zero_add]
    rw [Nat.zero_add, Option.getD_some, line_dist cross n1 n2 H.cr]
    exact ha
  · intro j h1 h2
    refine ⟨by simp, by simp, ?_⟩
    rw [Option.getD_some, line_dist cross n1 n2 H.cr, not_lt]
    rw [abs_lt] at ha
    have hj : ((j + 1 : ℕ) : ℝ) + 1 ≤ ((k + 1 : ℕ) : ℝ) := by
      have : j + 1 + 1 ≤ k + 1 := by omega
      exact_mod_cast this
    have : ((j + 1 : ℕ) : ℝ) * step + step ≤ ((k + 1 : ℕ) : ℝ) * step := by nlinarith
    rw [abs_sub_comm]
    refine le_trans ?_ (le_abs_self _)
    linarith [ha.1]

/-- **C221, refuted for open curves.**  Without `max_points` and `bounds` the march along a line never ends, neither
without an end point nor with one behind the start. -/
theorem C221_open_refuted (n1 n2 : E) (c1 c2 tol : ℝ) (ht : 0 ≤ tol) (maxIter : ℕ) (cross : E → E → E) (p : E)
    (H : OnLine n1 n2 c1 c2 cross p) (step : ℝ) (hs : 0 < step) (fuel : ℕ) :
    march (planeSolver n1 n2 c1 c2 tol maxIter) cross step (fun _ => False) none p none fuel = .running ∧
    ∀ a ≤ (0 : ℝ), march (planeSolver n1 n2 c1 c2 tol maxIter) cross step (fun _ => False) none p
      (some (p + a • tau cross n1 n2)) fuel = .running := by
  have key : ∀ a ≤ (0 : ℝ), marchLoop (planeSolver n1 n2 c1 c2 tol maxIter) cross step (fun _ => False) none
      (p + a • tau cross n1 n2) fuel (linePts p (tau cross n1 n2) step (0 + 1))
      (p + (((0 : ℕ) : ℝ) * step) • tau cross n1 n2) n1 n2 = .running := by
    intro a ha
    have h := line_run n1 n2 c1 c2 tol ht maxIter cross p H step hs (fun _ => False) none (p + a • tau cross n1 n2) fuel 0 0
      (fun j _ _ => ⟨by simp, by simp, far_from_start cross n1 n2 H.cr p step hs a (by linarith) j⟩)
    rw [Nat.zero_add fuel] at h
    rw [h, line_round n1 n2 c1 c2 tol ht maxIter cross p H step hs, if_pos (by simp), if_neg (by simp),
      if_neg (far_from_start cross n1 n2 H.cr p step hs a (by linarith) _)]
  constructor
  · rw [march_line n1 n2 c1 c2 tol ht maxIter cross p H]
    have := key 0 le_rfl
    simpa using this
  · intro a ha
    rw [march_line n1 n2 c1 c2 tol ht maxIter cross p H]
    exact key a ha

/-- **C221, bounds refuted.**  If the march along a line leaves the bounds after `k` steps the point outside is returned
too. -/
theorem C221_bounds_refuted (n1 n2 : E) (c1 c2 tol : ℝ) (ht : 0 ≤ tol) (maxIter : ℕ) (cross : E → E → E) (p : E)
    (H : OnLine n1 n2 c1 c2 cross p) (step : ℝ) (hs : 0 < step) (outside : E → Prop) (k : ℕ)
    (hin : ∀ j < k, ¬outside (p + ((j : ℝ) * step) • tau cross n1 n2))
    (hout : outside (p + ((k : ℝ) * step) • tau cross n1 n2)) (fuel : ℕ) (hf : k ≤ fuel) :
    march (planeSolver n1 n2 c1 c2 tol maxIter) cross step outside none p none fuel =
      .done (linePts p (tau cross n1 n2) step k ++ [p + ((k : ℝ) * step) • tau cross n1 n2]) := by
  rw [march_line n1 n2 c1 c2 tol ht maxIter cross p H]
  obtain ⟨f, rfl⟩ : ∃ f, fuel = f + k := ⟨fuel - k, by omega⟩
  rw [line_run n1 n2 c1 c2 tol ht maxIter cross p H step hs]
  · rw [line_round n1 n2 c1 c2 tol ht maxIter cross p H step hs, if_pos (by simp), if_pos, Nat.zero_add, linePts_succ]
    rw [Nat.zero_add]
    exact hout
  · intro j h1 h2
    refine ⟨by simp, hin j (by omega), ?_⟩
    have := far_from_start cross n1 n2 H.cr p step hs 0 (by linarith) j
    simpa using this

/-! ## A concrete situation -/

/-- The cross product of `EuclideanSpace ℝ (Fin 3)`. -/
def cross3 (a b : EuclideanSpace ℝ (Fin 3)) : EuclideanSpace ℝ (Fin 3) :=
  !₂[a 1 * b 2 - a 2 * b 1, a 2 * b 0 - a 0 * b 2, a 0 * b 1 - a 1 * b 0]

theorem inner3 (a b : EuclideanSpace ℝ (Fin 3)) : ⟪a, b⟫_ℝ = a 0 * b 0 + a 1 * b 1 + a 2 * b 2 := by
  rw [PiLp.inner_apply, Fin.sum_univ_three]
  simp
  ring

/-- For the cross product of space the situation of the theorems above is: two independent normals and a point of both
planes. -/
theorem onLine3 (n1 n2 : EuclideanSpace ℝ (Fin 3)) (c1 c2 : ℝ) (p : EuclideanSpace ℝ (Fin 3)) (h2 : n2 ≠ 0)
    (h1 : ∀ t : ℝ, n1 ≠ t • n2) (p1 : lin n1 c1 p = 0) (p2 : lin n2 c2 p = 0) : OnLine n1 n2 c1 c2 cross3 p := by
  refine ⟨h2, h1, ?_, ?_, ?_, p1, p2⟩
  · intro h
    have e0 : n1 1 * n2 2 - n1 2 * n2 1 = 0 := by simpa [cross3] using congrFun (congrArg WithLp.ofLp h) 0
    have e1 : n1 2 * n2 0 - n1 0 * n2 2 = 0 := by simpa [cross3] using congrFun (congrArg WithLp.ofLp h) 1
    have e2 : n1 0 * n2 1 - n1 1 * n2 0 = 0 := by simpa [cross3] using congrFun (congrArg WithLp.ofLp h) 2
    apply gram_ne_zero h2 h1
    unfold gram
    simp only [inner3]
    linear_combination (n1 1 * n2 2 - n1 2 * n2 1) * e0 + (n1 2 * n2 0 - n1 0 * n2 2) * e1 + (n1 0 * n2 1 - n1 1 * n2 0) * e2
  · rw [inner3]; simp [cross3]; ring
  · rw [inner3]; simp [cross3]; ring

/-- The planes x = 1 and y = 2, from the point (1, 2, 5). -/
example : OnLine !₂[(1 : ℝ), 0, 0] !₂[(0 : ℝ), 1, 0] 1 2 cross3 !₂[(1 : ℝ), 2, 5] := by
  apply onLine3
  · intro h
    have := congrFun (congrArg WithLp.ofLp h) 1
    simp at this
  · intro t h
    have := congrFun (congrArg WithLp.ofLp h) 0
    simp at this
  · simp [lin, inner3]
  · simp [lin, inner3]

end Verif.March
