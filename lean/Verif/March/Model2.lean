import Verif.March.Model

/-! # Marching: `mmcore/numeric/marching.py` and the iterator of `mmcore/numeric/intersection/implicit_implicit.py` -/

set_option linter.unusedSectionVars false

noncomputable section

open scoped InnerProductSpace Classical

namespace Verif.March

variable {E : Type*} [NormedAddCommGroup E] [InnerProductSpace ℝ E]

/-- What a call does: it raises, is still running when the fuel is used up, or returns a list of points. -/
inductive Out (E : Type*)
  | raised
  | running
  | done (pts : List E)

/-- The loop of `marching_intersection_curve_points` (marching.py:114-149).  `solve` is `intersection_curve_point` with
`return_grads=True` (`none` is its exception), `cross` is `scalar_cross`, `outside p` is the test of line 118 (never true if
`bounds is None`), `maxPts = none` is `sys.maxsize`. -/
def marchLoop (solve : E → Option (Hit E)) (cross : E → E → E) (step : ℝ) (outside : E → Prop) (maxPts : Option ℕ)
    (endPt : E) : ℕ → List E → E → E → E → Out E
  | fuel, pts, p, g1, g2 =>
    if (∀ m, maxPts = some m → pts.length < m) then
      if outside p then .done pts
      else
        let cr := cross g1 g2
        if ⟪cr, cr⟫_ℝ = 0 then .done pts
        else
          let t := ‖cr‖⁻¹ • cr
          match solve (p + step • t) with
          | none => .raised
          | some h =>
            match (if pts.length > 1 ∧ ‖h.q - pts.getD (pts.length - 2) 0‖ < step / 2 then solve (p - step • t) else some h) with
            | none => .raised
            | some h' =>
              if ‖h'.q - endPt‖ < step / 2 then .done pts
              else
                match fuel with
                | 0 => .running
                | n + 1 => marchLoop solve cross step outside maxPts endPt n (pts ++ [h'.q]) h'.q h'.g1 h'.g2
    else .done pts

/-- `marching_intersection_curve_points` (marching.py:81-151).  The points handed to `point_callback` are those of the
list. -/
def march (solve : E → Option (Hit E)) (cross : E → E → E) (step : ℝ) (outside : E → Prop) (maxPts : Option ℕ)
    (start : E) (endPt : Option E) (fuel : ℕ) : Out E :=
  match solve start with
  | none => .raised
  | some h => marchLoop solve cross step outside maxPts (endPt.getD h.q) fuel [h.q] h.q h.g1 h.g2

/-- The loop of `marching_implicit_curve_points` (marching.py:68-76).  `cp` is `curve_point` and `tan` the unit tangent
`_implicit_tangent(g, grad_derivative(p))`. -/
def implLoop (cp tan : E → E) (step : ℝ) (maxPts : Option ℕ) (endPt : E) : ℕ → List E → E → ℝ → Out E
  | fuel, pts, s, d =>
    if d > step / 2 ∧ (∀ m, maxPts = some m → pts.length < m) then
      match fuel with
      | 0 => .running
      | n + 1 =>
        let s' := cp (s + step • tan s)
        implLoop cp tan step maxPts endPt n (pts ++ [s']) s' ‖s' - endPt‖
    else .done (pts ++ [endPt])

/-- `marching_implicit_curve_points` (marching.py:26-78). -/
def implMarch (cp tan : E → E) (step : ℝ) (maxPts : Option ℕ) (v0 : E) (v1 : Option E) (fuel : ℕ) : Out E :=
  let s0 := cp v0
  let e := cp (v1.getD v0)
  let s1 := cp (s0 + step • tan s0)
  implLoop cp tan step maxPts e fuel [s0, s1] s1 step

end Verif.March

end

namespace Verif.March.Iter

/-! ## `ImplicitIntersectionCurveIterator` -/

/-- The state: the sampled points which are left and the next start (implicit_implicit.py:97-108). -/
structure St (α : Type) where
  points : List α
  initial : Option α

variable {α : Type}

/-- `np.delete(points, ixs, axis=0)` (line 153), positions counted from `k`. -/
def deleteAt (ixs : List ℕ) : ℕ → List α → List α
  | _, [] => []
  | k, a :: l => if k ∈ ixs then deleteAt ixs (k + 1) l else a :: deleteAt ixs (k + 1) l

/-- `KDTree.query_ball_point` (line 147): the positions of the points within `step` of `p`, counted from `k`. -/
def ball (near : α → α → Bool) (p : α) : ℕ → List α → List ℕ
  | _, [] => []
  | k, a :: l => if near p a then k :: ball near p (k + 1) l else ball near p (k + 1) l

/-- `rebuild_tree` (lines 150-168). -/
def rebuild (points : List α) (popQueue : List ℕ) : St α :=
  match deleteAt popQueue 0 points with
  | [] => ⟨[], none⟩
  | a :: l => ⟨l, some a⟩

/-- `__init__` (lines 97-108) with the sampled points. -/
def init (points : List α) : St α := rebuild points []

/-- `__next__` (lines 170-187): `none` is `StopIteration`.  `trace` is `marching_intersection_curve_points`, whose
callback (`trace_curve_point`, lines 146-148) collects the positions of the points near the points traced. -/
def next (near : α → α → Bool) (trace : α → List α) (s : St α) : Option (List α × St α) :=
  match s.initial with
  | none => none
  | some a =>
    let res := trace a
    some (res, rebuild s.points (res.flatMap fun p => ball near p 0 s.points))

/-- A `for` loop over the iterator, for at most `fuel` rounds: the curves, the starts, and whether the loop has ended. -/
def run (near : α → α → Bool) (trace : α → List α) : ℕ → St α → List (α × List α) × Bool
  | 0, s => ([], s.initial.isNone)
  | n + 1, s =>
    match s.initial, next near trace s with
    | some a, some (res, s') =>
      let r := run near trace n s'
      ((a, res) :: r.1, r.2)
    | _, _ => ([], true)

end Verif.March.Iter
