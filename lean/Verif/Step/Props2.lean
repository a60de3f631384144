import Verif.Step.Props
import Mathlib.Tactic.Linarith

/-! # C48, C105–C107: what the writer writes -/

set_option linter.unusedSectionVars false

namespace Verif.Step

/-! ## C48 -/

section
variable {K : Type} [Field K] [LinearOrder K] [IsStrictOrderedRing K]

/-- Repeat every value as often as its multiplicity says. -/
def expand {K : Type} (l : List (K × Nat)) : List K := l.flatMap (fun e => List.replicate e.2 e.1)

theorem multLoop_sum (tol : K) (ks : List K) : ∀ (last : K) (n : Nat),
    ((multLoop tol last n ks).map Prod.snd).sum = n + ks.length := by
  induction ks with
  | nil => intro last n; simp [multLoop]
  | cons k ks ih =>
    intro last n
    rw [multLoop]
    split_ifs
    · rw [ih]; simp; omega
    · simp [ih]; omega

theorem multLoop_pos (tol : K) (ks : List K) : ∀ (last : K) (n : Nat), 1 ≤ n →
    ∀ e ∈ multLoop tol last n ks, 1 ≤ e.2 := by
  induction ks with
  | nil => intro last n hn e he; simp [multLoop] at he; simp [he, hn]
  | cons k ks ih =>
    intro last n hn e he
    rw [multLoop] at he
    split_ifs at he
    · exact ih last (n + 1) (by omega) e he
    · rcases List.mem_cons.1 he with rfl | he
      · exact hn
      · exact ih k 1 le_rfl e he

theorem multLoop_close (tol : K) (ht : 0 < tol) (ks : List K) : ∀ (last : K) (n : Nat),
    List.Forall₂ (fun x y => |x - y| < tol) (List.replicate n last ++ ks)
      (expand (multLoop tol last n ks)) := by
  have rep : ∀ (n : Nat) (a : K),
      List.Forall₂ (fun x y => |x - y| < tol) (List.replicate n a) (List.replicate n a) := by
    intro n a
    induction n with
    | zero => exact .nil
    | succ n ih => exact .cons (by simpa using ht) ih
  have app : ∀ (a b c d : List K), List.Forall₂ (fun x y => |x - y| < tol) a b →
      List.Forall₂ (fun x y => |x - y| < tol) c d →
      List.Forall₂ (fun x y => |x - y| < tol) (a ++ c) (b ++ d) := by
    intro a b c d h1 h2
    induction h1 with
    | nil => exact h2
    | cons h _ ih => exact .cons h ih
  have key : ∀ (ks : List K) (last : K) (n : Nat), ∃ m, expand (multLoop tol last n ks) =
      List.replicate n last ++ m ∧ List.Forall₂ (fun x y => |x - y| < tol) ks m := by
    intro ks
    induction ks with
    | nil => intro last n; exact ⟨[], by simp [multLoop, expand], .nil⟩
    | cons k ks ih =>
      intro last n
      rw [multLoop]
      split_ifs with h
      · obtain ⟨m, e, f⟩ := ih last (n + 1)
        refine ⟨last :: m, ?_, .cons h f⟩
        rw [e, List.replicate_succ', List.append_assoc]
        rfl
      · obtain ⟨m, e, f⟩ := ih k 1
        refine ⟨k :: m, ?_, .cons (by simpa using ht) f⟩
        simp only [expand, List.flatMap_cons] at e ⊢
        rw [e]
        rfl
  intro last n
  obtain ⟨m, e, f⟩ := key ks last n
  rw [e]
  exact app _ _ _ _ (rep n last) f

theorem multLoop_gap (tol : K) (ks : List K) : ∀ (last : K) (n : Nat),
    ((multLoop tol last n ks).map Prod.fst).IsChain (fun a b => tol ≤ |b - a|) ∧
    ((multLoop tol last n ks).map Prod.fst).head? = some last := by
  induction ks with
  | nil => intro last n; simp [multLoop]
  | cons k ks ih =>
    intro last n
    rw [multLoop]
    split_ifs with h
    · exact ih last (n + 1)
    · obtain ⟨h1, h2⟩ := ih k 1
      refine ⟨?_, by simp⟩
      rw [List.map_cons]
      cases hl : List.map Prod.fst (multLoop tol k 1 ks) with
      | nil => rw [hl] at h2; cases h2
      | cons a l =>
        rw [hl] at h1 h2
        simp only [List.head?_cons, Option.some.injEq] at h2
        subst h2
        exact List.IsChain.cons_cons (not_lt.1 h) h1

theorem multLoop_exact (tol : K) (ht : 0 < tol) (ks : List K) : ∀ (last : K) (n : Nat),
    (∀ a ∈ last :: ks, ∀ b ∈ last :: ks, a ≠ b → tol ≤ |a - b|) →
    expand (multLoop tol last n ks) = List.replicate n last ++ ks := by
  induction ks with
  | nil => intro last n _; simp [multLoop, expand]
  | cons k ks ih =>
    intro last n h
    rw [multLoop]
    split_ifs with hk
    · have e : k = last := by
        by_contra hne
        exact absurd (h k (by simp) last (by simp) hne) (not_le.2 hk)
      subst e
      rw [ih k (n + 1) (fun a ha b hb => h a (by simp [List.mem_cons.1 ha]) b
        (by simp [List.mem_cons.1 hb])), List.replicate_succ', List.append_assoc]
      rfl
    · have := ih k 1 (fun a ha b hb => h a (List.mem_cons_of_mem _ ha) b (List.mem_cons_of_mem _ hb))
      simp only [expand, List.flatMap_cons] at this ⊢
      rw [this]
      rfl

/-- For every list of knots: the multiplicities are positive and add up to the number of knots;
expanding gives a list of the same length within the tolerance at every place; neighbouring distinct
knots differ by the tolerance. -/
theorem C48_multiplicities (tol : K) (ht : 0 < tol) (knots : List K) :
    ((knotMults tol knots).map Prod.snd).sum = knots.length ∧
    (∀ e ∈ knotMults tol knots, 1 ≤ e.2) ∧
    List.Forall₂ (fun x y => |x - y| < tol) knots (expand (knotMults tol knots)) ∧
    ((knotMults tol knots).map Prod.fst).IsChain (fun a b => tol ≤ |b - a|) := by
  cases knots with
  | nil => simp [knotMults, expand]
  | cons k ks =>
    refine ⟨?_, ?_, ?_, ?_⟩
    · simp [knotMults, multLoop_sum]; omega
    · exact multLoop_pos tol ks k 1 le_rfl
    · exact multLoop_close tol ht ks k 1
    · exact (multLoop_gap tol ks k 1).1

/-- If different knots differ by the tolerance, the knot vector is restored exactly. -/
theorem C48_exact (tol : K) (ht : 0 < tol) (knots : List K)
    (h : ∀ a ∈ knots, ∀ b ∈ knots, a ≠ b → tol ≤ |a - b|) : expand (knotMults tol knots) = knots := by
  cases knots with
  | nil => rfl
  | cons k ks => exact multLoop_exact tol ht ks k 1 h

/-- Of a nondecreasing knot vector the distinct knots increase by at least the tolerance. -/
theorem C48_sorted (tol : K) (ht : 0 < tol) (knots : List K)
    (hs : knots.Pairwise (fun a b => a ≤ b)) :
    ((knotMults tol knots).map Prod.fst).Pairwise (fun a b => a + tol ≤ b) := by
  have key : ∀ (ks : List K) (last : K) (n : Nat), (last :: ks).Pairwise (fun a b => a ≤ b) →
      ((multLoop tol last n ks).map Prod.fst).Pairwise (fun a b => a + tol ≤ b) ∧
      ∀ e ∈ multLoop tol last n ks, last ≤ e.1 := by
    intro ks
    induction ks with
    | nil => intro last n _; simp [multLoop]
    | cons k ks ih =>
      intro last n h
      have hk : last ≤ k := (List.pairwise_cons.1 h).1 k (by simp)
      rw [multLoop]
      split_ifs with c
      · refine ih last (n + 1) ?_
        refine List.pairwise_cons.2 ⟨fun a ha => (List.pairwise_cons.1 h).1 a (by simp [ha]), ?_⟩
        exact (List.pairwise_cons.1 (List.pairwise_cons.1 h).2).2
      · obtain ⟨h1, h2⟩ := ih k 1 (List.pairwise_cons.1 h).2
        have hd : tol ≤ k - last := by
          rw [not_lt, abs_of_nonneg (by linarith)] at c
          exact c
        refine ⟨?_, ?_⟩
        · rw [List.map_cons, List.pairwise_cons]
          refine ⟨?_, h1⟩
          intro b hb
          obtain ⟨e, he, rfl⟩ := List.mem_map.1 hb
          have := h2 e he
          show last + tol ≤ e.1
          linarith
        · intro e he
          rcases List.mem_cons.1 he with rfl | he
          · exact le_rfl
          · exact hk.trans (h2 e he)
  cases knots with
  | nil => simp [knotMults]
  | cons k ks => exact (key ks k 1 hs).1

end

example : knotMults (1 / 100 : ℚ) [0, 0, 0, 1, 1, 2, 2, 2] = [(0, 3), (1, 2), (2, 3)] ∧
    (∀ a ∈ ([0, 0, 0, 1, 1, 2, 2, 2] : List ℚ), ∀ b ∈ ([0, 0, 0, 1, 1, 2, 2, 2] : List ℚ),
      a ≠ b → 1 / 100 ≤ |a - b|) := by
  decide +kernel

/-! ## Reading the file back -/

/-- The coordinates of an entity of the given name with one list of numbers. -/
def readNums (name : String) (w : W) (r : Nat) : Option (List ℚ) :=
  match get r w.inst with
  | some (.simple ⟨n, [_, .nums p]⟩) => if n = name then some p else none
  | _ => none

/-- Location, axis (the `z` direction) and reference direction of a placement (ISO 10303-42). -/
def readPlacement (w : W) (r : Nat) : Option (List ℚ × List ℚ × List ℚ) :=
  match get r w.inst with
  | some (.simple ⟨n, [_, .ref a, .ref b, .ref c]⟩) =>
    if n = "AXIS2_PLACEMENT_3D" then
      match readNums "CARTESIAN_POINT" w a, readNums "DIRECTION" w b, readNums "DIRECTION" w c with
      | some o, some z, some x => some (o, z, x)
      | _, _, _ => none
    else none
  | _ => none

/-- Read all of a list. -/
def readAll {α : Type} (f : Nat → Option α) : List Nat → Option (List α)
  | [] => some []
  | r :: rs => match f r, readAll f rs with
    | some a, some as => some (a :: as)
    | _, _ => none

/-- Degree, control points, multiplicities and knots of a curve entity. -/
def readCurve (w : W) (r : Nat) : Option (ℚ × List (List ℚ) × List ℚ × List ℚ) :=
  match get r w.inst with
  | some (.simple ⟨n, [_, .num d, .refs ps, _, _, _, .nums ms, .nums ks, _]⟩) =>
    if n = "B_SPLINE_CURVE_WITH_KNOTS" then
      (readAll (readNums "CARTESIAN_POINT" w) ps).map (fun pts => (d, pts, ms, ks))
    else none
  | _ => none

/-- The start and end vertices of an oriented edge. -/
def readEdge (w : W) (r : Nat) : Option (Nat × Nat) :=
  match get r w.inst with
  | some (.simple ⟨n, [_, _, _, .ref c, _]⟩) =>
    if n = "ORIENTED_EDGE" then
      match get c w.inst with
      | some (.simple ⟨m, [_, .ref a, .ref b, _, _]⟩) => if m = "EDGE_CURVE" then some (a, b) else none
      | _ => none
    else none
  | _ => none

/-- The start and end vertices of the edges of a loop. -/
def readLoop (w : W) (r : Nat) : Option (List (Nat × Nat)) :=
  match get r w.inst with
  | some (.simple ⟨n, [_, .refs es]⟩) => if n = "EDGE_LOOP" then readAll (readEdge w) es else none
  | _ => none

theorem readNums_of {w : W} {r : Nat} {n : String} {p : Param} {q : List ℚ}
    (h : get r w.inst = some (.simple ⟨n, [p, .nums q]⟩)) : readNums n w r = some q := by
  simp [readNums, h]

theorem readNums_mono {w w' : W} (he : Ext w w') {n : String} {r : Nat} {p : List ℚ}
    (h : readNums n w r = some p) : readNums n w' r = some p := by
  obtain ⟨⟨l, e⟩, -⟩ := he
  unfold readNums at h ⊢
  rw [e]
  cases hg : get r w.inst with
  | none => rw [hg] at h; cases h
  | some v => rw [hg] at h; rw [get_append _ _ _ _ hg]; exact h

theorem readEdge_mono {w w' : W} (he : Ext w w') {r : Nat} {p : Nat × Nat}
    (h : readEdge w r = some p) : readEdge w' r = some p := by
  obtain ⟨⟨l, e⟩, -⟩ := he
  unfold readEdge at h ⊢
  rw [e]
  cases hg : get r w.inst with
  | none => rw [hg] at h; cases h
  | some v =>
    rw [hg] at h
    rw [get_append _ _ _ _ hg]
    try dsimp only at h ⊢
    split at h
    · next n p1 p2 p3 c p5 hv =>
      split_ifs at h ⊢ with hn
      cases hc : get c w.inst with
      | none => rw [hc] at h; cases h
      | some u => rw [hc] at h; rw [get_append _ _ _ _ hc]; exact h
    · cases h

theorem readAll_mono {α : Type} {f g : Nat → Option α} (h : ∀ r a, f r = some a → g r = some a) :
    ∀ (rs : List Nat) (as : List α), readAll f rs = some as → readAll g rs = some as
  | [], as, h' => h'
  | r :: rs, as, h' => by
    rw [readAll] at h' ⊢
    cases hr : f r with
    | none => rw [hr] at h'; cases h'
    | some a =>
      rw [hr] at h'
      cases hs : readAll f rs with
      | none => rw [hs] at h'; cases h'
      | some bs =>
        rw [hs] at h'
        rw [h r a hr, readAll_mono h rs bs hs]
        exact h'

/-! ## Running the methods -/

theorem bind_eq {α β : Type} (m : M α) (f : α → M β) (w : W) (a : α) (w' : W)
    (h : m w = (some a, w')) : (m >>= f) w = f a w' := by
  show M.bind m f w = _
  simp only [M.bind, h]

theorem addPoint_eq {w : W} (hi : Inv w) (pt : List ℚ) (h : pt.length = 2 ∨ pt.length = 3)
    (n : String) :
    addPoint pt n w = (some w.counter, w.add (.simple ⟨"CARTESIAN_POINT", [.str n, .nums pt]⟩)) := by
  unfold addPoint
  rw [if_pos h, addEntity_eq hi]

theorem addDirection_eq {w : W} (hi : Inv w) (pt : List ℚ) (h : pt.length = 2 ∨ pt.length = 3)
    (n : String) :
    addDirection pt n w = (some w.counter, w.add (.simple ⟨"DIRECTION", [.str n, .nums pt]⟩)) := by
  unfold addDirection
  rw [if_pos h, addEntity_eq hi]

/-- A good length. -/
def Len (p : List ℚ) : Prop := p.length = 2 ∨ p.length = 3

instance (p : List ℚ) : Decidable (Len p) := inferInstanceAs (Decidable (_ ∨ _))

/-! ## C105 -/

/-- `add_plane` writes a placement at the origin whose axis (the `z` direction of the reader) is the
`x` axis of the plane and whose reference direction is its `y` axis.

`_partial`: so the origin is right, the frame is not, `C105_frame_refuted`. -/
theorem C105_origin_partial {tol ktol : ℚ} {st : Static} {w : W} (h : Reach tol ktol st w)
    (o x y : List ℚ) (ho : Len o) (hx : Len x) (hy : Len y) :
    ∃ a b c d, (exec tol ktol st (.plane o x y) w).1 = some [a, b, c, d] ∧
      readPlacement (exec tol ktol st (.plane o x y) w).2 d = some (o, x, y) := by
  have hi := h.inv.1
  set w1 := w.add (.simple ⟨"CARTESIAN_POINT", [.str "", .nums o]⟩) with hw1
  have i1 : Inv w1 := inv_add hi _ (by
    simp [Inst.req, Entity.req, Entity.refsOf, Param.refsOf, typing])
  set w2 := w1.add (.simple ⟨"DIRECTION", [.str "", .nums x]⟩) with hw2
  have i2 : Inv w2 := inv_add i1 _ (by
    simp [Inst.req, Entity.req, Entity.refsOf, Param.refsOf, typing])
  set w3 := w2.add (.simple ⟨"DIRECTION", [.str "", .nums y]⟩) with hw3
  have i3 : Inv w3 := inv_add i2 _ (by
    simp [Inst.req, Entity.req, Entity.refsOf, Param.refsOf, typing])
  set w4 := w3.add (.simple ⟨"AXIS2_PLACEMENT_3D",
    [.str "", .ref w.counter, .ref w1.counter, .ref w2.counter]⟩) with hw4
  have e : exec tol ktol st (.plane o x y) w =
      (some [w.counter, w1.counter, w2.counter, w3.counter], w4) := by
    simp only [exec]
    rw [bind_eq _ _ _ _ _ (show (addPlane o x y) w =
      (some (w.counter, w1.counter, w2.counter, w3.counter), w4) from ?_)]
    · rfl
    · unfold addPlane
      rw [bind_eq _ _ _ _ _ (addPoint_eq hi o ho ""), bind_eq _ _ _ _ _ (addDirection_eq i1 x hx ""),
        bind_eq _ _ _ _ _ (addDirection_eq i2 y hy "")]
      rw [bind_eq (addPlacement _ _ _ _) _ _ _ _ (addEntity_eq i3 _)]
      rfl
  rw [e]
  refine ⟨_, _, _, _, rfl, ?_⟩
  have g1 : readNums "CARTESIAN_POINT" w4 w.counter = some o :=
    readNums_mono ((ext_add _ _).trans ((ext_add _ _).trans (ext_add _ _)))
      (readNums_of (get_add hi _))
  have g2 : readNums "DIRECTION" w4 w1.counter = some x :=
    readNums_mono ((ext_add _ _).trans (ext_add _ _)) (readNums_of (get_add i1 _))
  have g3 : readNums "DIRECTION" w4 w2.counter = some y :=
    readNums_mono (ext_add _ _) (readNums_of (get_add i2 _))
  simp only [readPlacement, hw4, get_add i3, if_true]
  rw [← hw4, g1, g2, g3]

/-- Inner product of coordinate lists. -/
def dotL : List ℚ → List ℚ → ℚ
  | a :: as, b :: bs => a * b + dotL as bs
  | _, _ => 0

/-- For every plane with unit `x` axis orthogonal to its normal the reader's `z` direction is not the
normal of the plane. -/
theorem C105_frame_refuted {tol ktol : ℚ} {st : Static} {w : W} (h : Reach tol ktol st w)
    (o x y z : List ℚ) (ho : Len o) (hx : Len x) (hy : Len y) (h1 : dotL x x = 1)
    (h2 : dotL x z = 0) :
    ∃ a b c d o' z' x', (exec tol ktol st (.plane o x y) w).1 = some [a, b, c, d] ∧
      readPlacement (exec tol ktol st (.plane o x y) w).2 d = some (o', z', x') ∧ z' ≠ z := by
  obtain ⟨a, b, c, d, e1, e2⟩ := C105_origin_partial h o x y ho hx hy
  refine ⟨a, b, c, d, o, x, y, e1, e2, ?_⟩
  rintro rfl
  rw [h1] at h2
  exact one_ne_zero h2

example : Len [0, 0, 0] ∧ dotL [1, 0, 0] [1, 0, 0] = 1 ∧ dotL [1, 0, 0] [0, 0, 1] = 0 := by
  decide +kernel

/-- The constructor succeeds, so there are reachable states. -/
example : ∃ st w, Reach (1 / 10000000) (1 / 100000000) st w ∧ w.inst.length = 17 ∧ w.counter = 18 := by
  refine ⟨⟨4, 8, 17⟩, _, .init [0, 0, 0] [1, 0, 0] [0, 1, 0] _ (by decide +kernel), ?_⟩
  decide +kernel

/-! ## C106 -/

theorem addPoints_eq (pts : List (List ℚ)) : ∀ (w : W), Inv w → (∀ p ∈ pts, Len p) →
    ∃ rs w', mapM' (fun p => addPoint p "") pts w = (some rs, w') ∧ Inv w' ∧ Ext w w' ∧
      readAll (readNums "CARTESIAN_POINT" w') rs = some pts := by
  induction pts with
  | nil => intro w hi _; exact ⟨[], w, rfl, hi, Ext.refl w, rfl⟩
  | cons p pts ih =>
    intro w hi hp
    have i1 : Inv (w.add (.simple ⟨"CARTESIAN_POINT", [.str "", .nums p]⟩)) := inv_add hi _ (by
      simp [Inst.req, Entity.req, Entity.refsOf, Param.refsOf, typing])
    obtain ⟨rs, w', e, i2, x2, r2⟩ := ih _ i1 (fun q hq => hp q (by simp [hq]))
    refine ⟨w.counter :: rs, w', ?_, i2, (ext_add _ _).trans x2, ?_⟩
    · rw [mapM', bind_eq _ _ _ _ _ (addPoint_eq hi p (hp p (by simp)) ""), bind_eq _ _ _ _ _ e]
      rfl
    · rw [readAll, readNums_mono x2 (readNums_of (get_add hi _)), r2]

theorem holds_of_readNums {w : W} {n : String} {r : Nat} {p : List ℚ}
    (h : readNums n w r = some p) : Holds w (r, none) := by
  unfold readNums at h
  cases hg : get r w.inst with
  | none => rw [hg] at h; cases h
  | some v => exact ⟨v, hg, by simp⟩

theorem readAll_all {α : Type} {f : Nat → Option α} : ∀ (rs : List Nat) (as : List α),
    readAll f rs = some as → ∀ r ∈ rs, ∃ a, f r = some a
  | [], _, _, r, hr => by simp at hr
  | q :: rs, as, h, r, hr => by
    rw [readAll] at h
    cases hq : f q with
    | none => rw [hq] at h; cases h
    | some a =>
      cases hs : readAll f rs with
      | none => rw [hq, hs] at h; cases h
      | some bs =>
        rcases List.mem_cons.1 hr with rfl | hr
        · exact ⟨a, hq⟩
        · exact readAll_all rs bs hs r hr

theorem addBSpline_eq (ktol : ℚ) (c : Curve) (n : String) (w : W) (hi : Inv w)
    (hp : ∀ p ∈ c.pts, Len p) :
    ∃ r w', addBSpline ktol c n w = (some r, w') ∧ Inv w' ∧ Ext w w' ∧ w.counter ≤ r ∧
      Holds w' (r, none) ∧
      readCurve w' r = some ((c.degree : ℚ), c.pts, (knotMults ktol c.knots).map (fun e => (e.2 : ℚ)),
        (knotMults ktol c.knots).map Prod.fst) := by
  obtain ⟨rs, w1, e1, i1, x1, r1⟩ := addPoints_eq c.pts w hi hp
  unfold addBSpline
  try dsimp only
  rw [bind_eq _ _ _ _ _ e1, addEntity_eq i1]
  have hv : ∀ f ∈ (Inst.simple ⟨"B_SPLINE_CURVE_WITH_KNOTS",
    [.str n, .num c.degree, .refs rs, .enum ".UNSPECIFIED.", .enum ".F.", .enum ".F.",
     .nums ((knotMults ktol c.knots).map (fun e => (e.2 : ℚ))),
     .nums ((knotMults ktol c.knots).map Prod.fst), .enum ".UNSPECIFIED."]⟩).req, Holds w1 f := by
    intro f hf
    simp only [Inst.req, Entity.req, Entity.refsOf, Param.refsOf, typing, List.flatMap_cons,
      List.flatMap_nil, List.append_nil, List.nil_append, String.reduceEq, reduceIte,
      List.mem_map] at hf
    obtain ⟨r, hr, rfl⟩ := hf
    obtain ⟨a, ha⟩ := readAll_all rs _ r1 r hr
    exact holds_of_readNums ha
  refine ⟨_, _, rfl, inv_add i1 _ hv, x1.trans (ext_add _ _), x1.2, ⟨_, get_add i1 _, by simp⟩, ?_⟩
  simp only [readCurve, get_add i1, if_true]
  rw [readAll_mono (fun r a h => readNums_mono (ext_add w1 _) h) rs _ r1]
  rfl

/-- What is written of a curve can be read back: degree, control points in order, and the knots with
multiplicities that restore the knot vector when different knots differ by the tolerance.

`_partial`: the weights are not written, `C106_weights_refuted`. -/
theorem C106_curve_partial {tol ktol : ℚ} {st : Static} {w : W} (h : Reach tol ktol st w)
    (ht : 0 < ktol) (c : Curve) (n : String) (hp : ∀ p ∈ c.pts, Len p)
    (hk : ∀ a ∈ c.knots, ∀ b ∈ c.knots, a ≠ b → ktol ≤ |a - b|) :
    ∃ (r : Nat) (ms : List Nat) (ks : List ℚ), (exec tol ktol st (.bspline c n) w).1 = some [r] ∧
      readCurve (exec tol ktol st (.bspline c n) w).2 r =
        some ((c.degree : ℚ), c.pts, ms.map (fun m : Nat => (m : ℚ)), ks) ∧ ms.length = ks.length ∧
      expand (ks.zip ms) = c.knots := by
  obtain ⟨r, w', e, -, -, -, -, hr⟩ := addBSpline_eq ktol c n w h.inv.1 hp
  have e' : exec tol ktol st (.bspline c n) w = (some [r], w') := by
    simp only [exec, one]
    rw [bind_eq _ _ _ _ _ e]
    rfl
  rw [e']
  refine ⟨r, (knotMults ktol c.knots).map Prod.snd, (knotMults ktol c.knots).map Prod.fst, rfl, ?_,
    by simp, ?_⟩
  · rw [hr]; simp [Function.comp_def]
  · rw [← List.zip_of_prod (xs := knotMults ktol c.knots) rfl rfl]
    exact C48_exact ktol ht c.knots hk

/-- Whatever the weights, the same file is written. -/
theorem C106_weights_refuted (tol ktol : ℚ) (st : Static) (w : W) (c : Curve) (ws : List ℚ)
    (s : Surf) (wss : List (List ℚ)) (color : List ℚ) (n : String) :
    exec tol ktol st (.bspline c n) w = exec tol ktol st (.bspline { c with weights := ws } n) w ∧
    exec tol ktol st (.curve c) w = exec tol ktol st (.curve { c with weights := ws }) w ∧
    exec tol ktol st (.surface s color n) w =
      exec tol ktol st (.surface { s with weights := wss } color n) w :=
  ⟨rfl, rfl, rfl⟩

/-! ## C107 -/

theorem addVertexRef_point {w : W} (hi : Inv w) (r : Nat) (n : String) (v : Inst)
    (hr : get r w.inst = some v) (ht : v.type = "CARTESIAN_POINT") :
    addVertexRef r n w = (some w.counter, w.add (.simple ⟨"VERTEX_POINT", [.str n, .ref r]⟩)) := by
  unfold addVertexRef
  rw [bind_eq _ _ _ _ _ (show typeOf r w = (some "CARTESIAN_POINT", w) by simp [typeOf, hr, ht])]
  rw [if_pos rfl, addEntity_eq hi]

theorem curveEdge_eq (ktol : ℚ) (c : Curve) (w : W) (hi : Inv w) (hp : ∀ p ∈ c.pts, Len p)
    (hs : Len c.start) (he : Len c.stop) :
    ∃ r w' a b, addCurveEdge ktol c w = (some r, w') ∧ Inv w' ∧ Ext w w' ∧
      readEdge w' r = some (a, b) ∧ w.counter ≤ a ∧ a < b ∧ b < w'.counter := by
  set w1 := w.add (.simple ⟨"CARTESIAN_POINT", [.str "", .nums c.start]⟩) with hw1
  have i1 : Inv w1 := inv_add hi _ (by
    simp [Inst.req, Entity.req, Entity.refsOf, Param.refsOf, typing])
  have x1 : Ext w w1 := ext_add _ _
  set w2 := w1.add (.simple ⟨"CARTESIAN_POINT", [.str "", .nums c.stop]⟩) with hw2
  have i2 : Inv w2 := inv_add i1 _ (by
    simp [Inst.req, Entity.req, Entity.refsOf, Param.refsOf, typing])
  have x2 : Ext w1 w2 := ext_add _ _
  obtain ⟨g, w3, e3, i3, x3, -, hg, -⟩ := addBSpline_eq ktol c "" w2 i2 hp
  have g1 : get w.counter w3.inst =
      some (.simple ⟨"CARTESIAN_POINT", [.str "", .nums c.start]⟩) := by
    obtain ⟨⟨l, e⟩, -⟩ := x2.trans x3
    rw [e]; exact get_append _ _ _ _ (get_add hi _)
  set w4 := w3.add (.simple ⟨"VERTEX_POINT", [.str "", .ref w.counter]⟩) with hw4
  have x4 : Ext w3 w4 := ext_add _ _
  have i4 : Inv w4 := inv_add i3 _ (by
    intro f hf
    simp [Inst.req, Entity.req, Entity.refsOf, Param.refsOf, typing] at hf
    rcases hf with rfl | rfl
    · exact ⟨_, g1, by simp⟩
    · exact ⟨_, g1, by intro t ht; cases ht; rfl⟩)
  have g2 : get w1.counter w4.inst =
      some (.simple ⟨"CARTESIAN_POINT", [.str "", .nums c.stop]⟩) := by
    obtain ⟨⟨l, e⟩, -⟩ := x3.trans x4
    rw [e]; exact get_append _ _ _ _ (get_add i1 _)
  set w5 := w4.add (.simple ⟨"VERTEX_POINT", [.str "", .ref w1.counter]⟩) with hw5
  have x5 : Ext w4 w5 := ext_add _ _
  have i5 : Inv w5 := inv_add i4 _ (by
    intro f hf
    simp [Inst.req, Entity.req, Entity.refsOf, Param.refsOf, typing] at hf
    rcases hf with rfl | rfl
    · exact ⟨_, g2, by simp⟩
    · exact ⟨_, g2, by intro t ht; cases ht; rfl⟩)
  have v1 : get w3.counter w5.inst = some (.simple ⟨"VERTEX_POINT", [.str "", .ref w.counter]⟩) := by
    obtain ⟨⟨l, e⟩, -⟩ := x5
    rw [e]; exact get_append _ _ _ _ (get_add i3 _)
  have v2 : get w4.counter w5.inst = some (.simple ⟨"VERTEX_POINT", [.str "", .ref w1.counter]⟩) :=
    get_add i4 _
  set w6 := w5.add (.simple ⟨"EDGE_CURVE",
    [.str "", .ref w3.counter, .ref w4.counter, .ref g, tf true]⟩) with hw6
  have x6 : Ext w5 w6 := ext_add _ _
  have i6 : Inv w6 := inv_add i5 _ (by
    intro f hf
    simp [Inst.req, Entity.req, Entity.refsOf, Param.refsOf, typing, tf] at hf
    rcases hf with rfl | rfl | rfl | rfl | rfl
    · exact ⟨_, v1, by simp⟩
    · exact ⟨_, v2, by simp⟩
    · exact hg.mono (x4.trans x5)
    · exact ⟨_, v1, by intro t ht; cases ht; rfl⟩
    · exact ⟨_, v2, by intro t ht; cases ht; rfl⟩)
  set w7 := w6.add (.simple ⟨"ORIENTED_EDGE",
    [.str "", .unset "*", .unset "*", .ref w5.counter, tf true]⟩) with hw7
  have x7 : Ext w6 w7 := ext_add _ _
  have g5 : get w5.counter w6.inst = some (.simple ⟨"EDGE_CURVE",
    [.str "", .ref w3.counter, .ref w4.counter, .ref g, tf true]⟩) := get_add i5 _
  have i7 : Inv w7 := inv_add i6 _ (by
    intro f hf
    simp [Inst.req, Entity.req, Entity.refsOf, Param.refsOf, typing, tf] at hf
    subst hf
    exact ⟨_, g5, by simp⟩)
  refine ⟨w6.counter, w7, w3.counter, w4.counter, ?_, i7,
    x1.trans (x2.trans (x3.trans (x4.trans (x5.trans (x6.trans x7))))), ?_,
    (x1.trans (x2.trans x3)).2, by simp [hw4, W.add], ?_⟩
  · unfold addCurveEdge
    rw [bind_eq _ _ _ _ _ (addPoint_eq hi _ hs ""), bind_eq _ _ _ _ _ (addPoint_eq i1 _ he ""),
      bind_eq _ _ _ _ _ e3]
    have eec : addEdgeCurve (.ref w.counter) (.ref w1.counter) g true "" w3 =
        (some w5.counter, w6) := by
      unfold addEdgeCurve
      rw [bind_eq (addVertex (.ref w.counter) "") _ _ _ _
          (addVertexRef_point i3 w.counter "" _ g1 rfl),
        bind_eq (addVertex (.ref w1.counter) "") _ _ _ _
          (addVertexRef_point i4 w1.counter "" _ g2 rfl)]
      exact addEntity_eq i5 _
    rw [bind_eq _ _ _ _ _ eec]
    exact addEntity_eq i6 _
  · have g6 : get w6.counter w7.inst = some (.simple ⟨"ORIENTED_EDGE",
        [.str "", .unset "*", .unset "*", .ref w5.counter, tf true]⟩) := get_add i6 _
    have g5' : get w5.counter w7.inst = some (.simple ⟨"EDGE_CURVE",
        [.str "", .ref w3.counter, .ref w4.counter, .ref g, tf true]⟩) := by
      obtain ⟨⟨l, e⟩, -⟩ := x7
      rw [e]; exact get_append _ _ _ _ g5
    simp [readEdge, g6, g5']
  · simp [hw4, hw5, hw6, hw7, W.add]

/-- The vertices of a list of edges, in order. -/
def ends (l : List (Nat × Nat)) : List Nat := l.flatMap (fun e => [e.1, e.2])

theorem curveEdges_eq (ktol : ℚ) (cs : List Curve) : ∀ (w : W), Inv w →
    (∀ c ∈ cs, (∀ p ∈ c.pts, Len p) ∧ Len c.start ∧ Len c.stop) →
    ∃ rs w' vs, mapM' (addCurveEdge ktol) cs w = (some rs, w') ∧ Inv w' ∧ Ext w w' ∧
      readAll (readEdge w') rs = some vs ∧ vs.length = cs.length ∧
      (ends vs).Pairwise (· < ·) ∧ ∀ v ∈ ends vs, w.counter ≤ v := by
  induction cs with
  | nil => intro w hi _; exact ⟨[], w, [], rfl, hi, Ext.refl w, rfl, rfl, by simp [ends], by simp [ends]⟩
  | cons c cs ih =>
    intro w hi hc
    obtain ⟨h1, h2, h3⟩ := hc c (by simp)
    obtain ⟨r, w1, a, b, e1, i1, x1, r1, l1, l2, l3⟩ := curveEdge_eq ktol c w hi h1 h2 h3
    obtain ⟨rs, w', vs, e, i2, x2, r2, hl, hp, hm⟩ := ih w1 i1 (fun q hq => hc q (by simp [hq]))
    refine ⟨r :: rs, w', (a, b) :: vs, ?_, i2, x1.trans x2, ?_, by simp [hl], ?_, ?_⟩
    · rw [mapM', bind_eq _ _ _ _ _ e1, bind_eq _ _ _ _ _ e]
      rfl
    · rw [readAll, readEdge_mono x2 r1, r2]
    · have : ends ((a, b) :: vs) = a :: b :: ends vs := rfl
      rw [this]
      simp only [List.pairwise_cons, List.mem_cons, forall_eq_or_imp]
      refine ⟨⟨l2, ?_⟩, ?_, hp⟩
      · intro v hv; have := hm v hv; omega
      · intro v hv; have := hm v hv; omega
    · have : ends ((a, b) :: vs) = a :: b :: ends vs := rfl
      rw [this]
      intro v hv
      simp only [List.mem_cons] at hv
      rcases hv with rfl | rfl | hv
      · exact l1
      · omega
      · have := hm v hv; have := x1.2; omega

theorem type_of_readEdge {w : W} {r : Nat} {p : Nat × Nat} (h : readEdge w r = some p) :
    typeOf r w = (some "ORIENTED_EDGE", w) := by
  unfold readEdge at h
  unfold typeOf
  split at h
  · next n c hv =>
    split_ifs at h with hn
    subst hn
    rw [hv]
    rfl
  · cases h

theorem orientAll_eq {w : W} : ∀ (rs : List Nat), (∀ r ∈ rs, typeOf r w = (some "ORIENTED_EDGE", w)) →
    orientAll rs w = (some rs, w)
  | [], _ => rfl
  | r :: rs, h => by
    have h1 : orient1 r w = (some r, w) := by
      unfold orient1
      rw [bind_eq _ _ _ _ _ (h r (by simp))]
      rfl
    rw [orientAll, bind_eq _ _ _ _ _ h1, bind_eq _ _ _ _ _
      (orientAll_eq rs (fun q hq => h q (by simp [hq])))]
    rfl

/-- For every surface (with boundaries of two or three coordinates) a loop is written with one edge
per boundary, and all `2n` vertices of its edges are different: no edge ends where another begins, and
an edge along a closed boundary does not end where it begins. -/
theorem C107_loop_refuted {tol ktol : ℚ} {st : Static} {w : W} (h : Reach tol ktol st w)
    (s : Surf) (color : List ℚ) (n : String)
    (hb : ∀ c ∈ s.bounds, (∀ p ∈ c.pts, Len p) ∧ Len c.start ∧ Len c.stop) :
    ∃ l vs, readLoop (exec tol ktol st (.surface s color n) w).2 l = some vs ∧
      vs.length = s.bounds.length ∧ (ends vs).Nodup := by
  have hi := h.inv.1
  obtain ⟨rs, w1, vs, e1, i1, x1, r1, hl, hp, -⟩ := curveEdges_eq ktol s.bounds w hi hb
  have horient := orientAll_eq (w := w1) rs (by
    intro r hr
    obtain ⟨p, hp⟩ := readAll_all rs vs r1 r hr
    exact type_of_readEdge hp)
  have hloop : addLoop rs "" w1 = (some w1.counter, w1.add (.simple ⟨"EDGE_LOOP", [.str "", .refs rs]⟩)) := by
    unfold addLoop
    rw [bind_eq _ _ _ _ _ horient, addEntity_eq i1]
  set w2 := w1.add (.simple ⟨"EDGE_LOOP", [.str "", .refs rs]⟩) with hw2
  have g2 := get_add i1 (.simple ⟨"EDGE_LOOP", [.str "", .refs rs]⟩)
  rw [← hw2] at g2
  -- the rest of the method only adds
  have hext : Ext w2 (exec tol ktol st (.surface s color n) w).2 := by
    have t2 : Inv w2 ∧ ∀ f ∈ is w1.counter "EDGE_LOOP" ++ st.facts, Holds w2 f := by
      have := T.loop (rs := st.facts) rs "" w1 i1 (fun f hf => (h.inv.2 f hf).mono x1)
      rw [hloop] at this
      refine ⟨this.1, ?_⟩
      intro f hf
      rcases List.mem_append.1 hf with hf | hf
      · exact this.2.2 _ rfl f hf
      · exact (h.inv.2 f hf).mono (x1.trans (ext_add _ _))
    have hx : (exec tol ktol st (.surface s color n) w).2 =
        (addSurface tol ktol st s color n w).2 := by
      simp only [exec, one, bind, M.bind]
      rcases addSurface tol ktol st s color n w with ⟨r, w'⟩
      cases r <;> rfl
    rw [hx]
    unfold addSurface
    try dsimp only
    rw [bind_eq _ _ _ _ _ e1, bind_eq _ _ _ _ _ hloop]
    refine (T.bind (rs := is w1.counter "EDGE_LOOP" ++ st.facts) (out2 := fun _ => [])
      (T.entity (by facts)) (fun fb => ?_) w2 t2.1 t2.2).2.1
    refine T.bind (T.mapM' s.net (fun row _ => T.mapM' row (fun p _ => T.point p "")))
      (fun net => ?_)
    refine T.bind (T.plain (by simp [typing]) ?_) (fun g => ?_)
    · intro w hw r hr
      simp only [Entity.refsOf, Param.refsOf, List.flatMap_cons, List.flatMap_nil, List.append_nil,
        List.nil_append, List.mem_flatten] at hr
      obtain ⟨row, hrow, hr⟩ := hr
      apply hw
      simp only [List.mem_append, List.mem_flatMap]
      exact Or.inl ⟨row, hrow, r, hr, by simp [is]⟩
    unfold Static.facts
    refine T.bind (T.entity (by facts)) (fun f => ?_)
    refine T.bind (T.entity (by facts)) (fun sh => ?_)
    refine T.bind (T.entity (by facts)) (fun m => ?_)
    refine T.bind (T.style tol st m color ?_) (fun _ => T.pure (by simp))
    facts
  refine ⟨w1.counter, vs, ?_, hl, hp.imp (fun h => Nat.ne_of_lt h)⟩
  obtain ⟨⟨l, e⟩, hc⟩ := hext
  have g : get w1.counter (exec tol ktol st (.surface s color n) w).2.inst =
      some (.simple ⟨"EDGE_LOOP", [.str "", .refs rs]⟩) := by
    rw [e]; exact get_append _ _ _ _ g2
  simp only [readLoop, g, if_true]
  exact readAll_mono (fun r a h => readEdge_mono ((ext_add w1 _).trans ⟨⟨l, e⟩, hc⟩) h) rs vs r1

/-- A bilinear patch: the written loop has four edges with eight vertices. -/
example :
    let c : List ℚ → List ℚ → Curve := fun a b => ⟨1, [a, b], [1, 1], [0, 0, 1, 1], a, b⟩
    let s : Surf := ⟨1, 1, [[[0, 0, 0], [0, 1, 0]], [[1, 0, 0], [1, 1, 0]]], [[1, 1], [1, 1]],
      [0, 0, 1, 1], [0, 0, 1, 1], [c [0, 0, 0] [0, 1, 0], c [1, 0, 0] [1, 1, 0],
        c [0, 0, 0] [1, 0, 0], c [0, 1, 0] [1, 1, 0]]⟩
    let w := (init (1 / 10000000) [0, 0, 0] [1, 0, 0] [0, 1, 0] W.new).2
    readLoop (exec (1 / 10000000) (1 / 100000000) ⟨4, 8, 17⟩ (.surface s [1, 1, 1] "") w).2 54 =
      some [(23, 24), (32, 33), (41, 42), (50, 51)] := by
  decide +kernel

end Verif.Step
