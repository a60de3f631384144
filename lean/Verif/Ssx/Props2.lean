import Verif.Ssx.Props
import Mathlib.Data.List.Basic

/-! # C267 to C270: the loop of marching, the loop over the start points, the free-form iteration, boundary points -/

set_option linter.unusedSectionVars false

namespace Verif.Ssx

open Verif.Vec V3 Verif.Pinv

section
variable {K : Type} [Field K] [LinearOrder K]
variable {P U : Type}

/-! ## C267: `MarchingMethod.solve` -/

/-- Consecutive steps from `uv`: each from the parameters of the one before. -/
def Trace (step : U → Option (P × U × K × Bool)) : U → List (P × U × K) → Prop
  | _, [] => True
  | uv, (p, w, l) :: rest => (∃ e, step uv = some (p, w, l, e)) ∧ Trace step w rest

/-- The parameters after the steps. -/
def lastUV : U → List (P × U × K) → U
  | uv, [] => uv
  | _, x :: rest => lastUV x.2.1 rest

theorem trace_snoc (step : U → Option (P × U × K × Bool)) (p : P) (w : U) (l : K) (e : Bool) : ∀ (T : List (P × U × K)) (uv : U),
    Trace step uv T → step (lastUV uv T) = some (p, w, l, e) → Trace step uv (T ++ [(p, w, l)]) ∧ lastUV uv (T ++ [(p, w, l)]) = w := by
  intro T
  induction T with
  | nil => intro uv _ h; exact ⟨⟨⟨e, h⟩, trivial⟩, rfl⟩
  | cons x T ih =>
    intro uv h h2
    obtain ⟨h1, h3⟩ := ih x.2.1 h.2 h2
    exact ⟨⟨h.1, h1⟩, h3⟩

/-- What `marchLoop` keeps: the lists are those of a trace. -/
def Inv (step : U → Option (P × U × K × Bool)) (ball : P → K → List Nat) (init : U) (T : List (P × U × K)) (r : Res P U K) : Prop :=
  Trace step init T ∧ r.uvs = T.map (fun x => x.2.1) ∧ r.pts = T.map (fun x => x.1) ∧ r.steps = T.map (fun x => x.2.2) ∧
  r.ixss = 0 :: T.flatMap (fun x => ball x.1 (x.2.2 * 2))

theorem marchLoop_spec (step : U → Option (P × U × K × Bool)) (ball : P → K → List Nat) (near : P → K → Bool) (init : U) (first : P) :
    ∀ (n : Nat) (T : List (P × U × K)) (r : Res P U K), Inv step ball init T r → r.term = .step →
      ∃ A r', A.length ≤ n ∧ Inv step ball init (T ++ A) r' ∧
        ((r'.term ≠ .loop ∧ (r'.term = .step → A.length = n) ∧ marchLoop step ball near init first n (lastUV init T) r = r') ∨
        (∃ A' y, A = A' ++ [y] ∧ near y.1 y.2.2 = true) ∧
          marchLoop step ball near init first n (lastUV init T) r = ⟨r'.uvs ++ [init], r'.pts ++ [first], r'.steps, r'.ixss, .loop⟩) := by
  intro n
  induction n with
  | zero => intro T r h ht; exact ⟨[], r, by simp, by simpa using h, Or.inl ⟨by simp [ht], fun _ => rfl, rfl⟩⟩
  | succ n ih =>
    intro T r h ht
    unfold marchLoop
    cases e : step (lastUV init T) with
    | none => exact ⟨[], { r with term := .edge }, by simp, by simpa [Inv] using h, Or.inl ⟨by simp, fun h => by simp at h, rfl⟩⟩
    | some x =>
      obtain ⟨p, w, l, edge⟩ := x
      dsimp only
      obtain ⟨h1, h2, h3, h4, h5⟩ := h
      obtain ⟨g1, g2⟩ := trace_snoc step p w l edge T init h1 e
      have hinv : Inv step ball init (T ++ [(p, w, l)]) ⟨r.uvs ++ [w], r.pts ++ [p], r.steps ++ [l], r.ixss ++ ball p (l * 2), if edge then .edge else .step⟩ := by
        refine ⟨g1, ?_, ?_, ?_, ?_⟩
        · simp [h2]
        · simp [h3]
        · simp [h4]
        · simp [h5]
      by_cases c : edge = true
      · rw [if_pos c]
        exact ⟨[(p, w, l)], _, by simp, hinv, Or.inl ⟨by simp [c], fun h => by simp [c] at h, rfl⟩⟩
      · rw [if_neg c]
        by_cases c2 : near p l = true
        · rw [if_pos c2]
          exact ⟨[(p, w, l)], _, by simp, hinv, Or.inr ⟨⟨[], (p, w, l), rfl, c2⟩, rfl⟩⟩
        · rw [if_neg c2]
          obtain ⟨A, r', k1, k2, k3⟩ := ih _ _ hinv (by simp [c])
          rw [g2] at k3
          refine ⟨(p, w, l) :: A, r', by simpa using k1, by simpa using k2, ?_⟩
          rcases k3 with ⟨q1, q2, q3⟩ | ⟨⟨A', y, rfl, q⟩, q3⟩
          · exact Or.inl ⟨q1, fun h => by simpa using q2 h, q3⟩
          · exact Or.inr ⟨⟨(p, w, l) :: A', y, rfl, q⟩, q3⟩

/-- **C267**: the points returned are those of consecutive steps from the start, at most `max_iter + 1`, as many as that if neither an
edge nor the start is reached; the parameters stored are those of the points, except that for a closed curve one of each is added; the
indices are 0 and those of the start points in the balls around the points with twice the length of the step as radius. -/
theorem C267_trace (step : U → Option (P × U × K × Bool)) (ball : P → K → List Nat) (near : P → K → Bool) (maxIter : Nat) (init : U)
    (r : Res P U K) (h : marchSolve step ball near maxIter init = some r) :
    ∃ x T, Trace step init (x :: T) ∧ T.length ≤ maxIter ∧ (r.term = .step → T.length = maxIter) ∧ r.steps = (x :: T).map (fun x => x.2.2) ∧
      r.ixss = 0 :: (x :: T).flatMap (fun x => ball x.1 (x.2.2 * 2)) ∧
      r.uvs = (x :: T).map (fun x => x.2.1) ++ (if r.term = .loop then [init] else []) ∧
      r.pts = (x :: T).map (fun x => x.1) ++ (if r.term = .loop then [x.1] else []) ∧
      (r.term = .loop → ∃ T' y, T = T' ++ [y] ∧ near y.1 y.2.2 = true) := by
  unfold marchSolve at h
  cases e : step init with
  | none => rw [e] at h; simp at h
  | some x =>
    obtain ⟨p, w, l, edge⟩ := x
    rw [e] at h
    dsimp only at h
    have hinv : Inv step ball init [(p, w, l)] ⟨[w], [p], [l], 0 :: ball p (l * 2), if edge then .edge else .step⟩ :=
      ⟨⟨⟨edge, e⟩, trivial⟩, rfl, rfl, rfl, by simp⟩
    by_cases c : edge = true
    · rw [if_pos c] at h
      simp only [Option.some.injEq] at h
      subst h
      refine ⟨(p, w, l), [], hinv.1, by simp, by simp [c], rfl, hinv.2.2.2.2, by simp [c], by simp [c], by simp [c]⟩
    · rw [if_neg c] at h
      simp only [Option.some.injEq] at h
      obtain ⟨A, r', k1, k2, k3⟩ := marchLoop_spec step ball near init p maxIter _ _ hinv (by simp [c])
      have hl : lastUV init [(p, w, l)] = w := rfl
      rw [hl, h] at k3
      obtain ⟨q1, q2, q3, q4, q5⟩ := k2
      refine ⟨(p, w, l), A, q1, k1, ?_⟩
      rcases k3 with ⟨g1, g2, rfl⟩ | ⟨g1, rfl⟩
      · refine ⟨g2, q4, q5, ?_, ?_, fun h => absurd h g1⟩
        · rw [if_neg g1, List.append_nil]; exact q2
        · rw [if_neg g1, List.append_nil]; exact q3
      · refine ⟨fun h => by simp at h, q4, q5, ?_, ?_, fun _ => g1⟩
        · simp only [if_true]; rw [q2]; rfl
        · simp only [if_true]; rw [q3]; rfl

/-- **C267 refuted**: a closed curve is closed with the point of the first step and the parameters of the start.  The curve that
`surface_ppi` makes of it, the start before the points, ends in its second point instead of its first, and the last pair of parameters
is not that of the last point. -/
theorem C267_closed_refuted (step : U → Option (P × U × K × Bool)) (ball : P → K → List Nat) (near : P → K → Bool) (maxIter : Nat) (init : U)
    (start : P) (r : Res P U K) (h : marchSolve step ball near maxIter init = some r) (hl : r.term = .loop) :
    (start :: r.pts).getLast? = (start :: r.pts)[1]? ∧ (init :: r.uvs).getLast? = (init :: r.uvs)[0]? ∧
    ∃ p w l e, step init = some (p, w, l, e) ∧ (start :: r.pts).getLast? = some p ∧ (init :: r.uvs)[1]? = some w := by
  obtain ⟨x, T, h1, -, -, -, -, h2, h3, -⟩ := C267_trace step ball near maxIter init r h
  rw [if_pos hl] at h2 h3
  obtain ⟨p, w, l⟩ := x
  obtain ⟨⟨e, he⟩, -⟩ := h1
  rw [h2, h3]
  have a1 : ∀ (a : P) (m : List P) (b : P), (a :: (m ++ [b])).getLast? = some b := by
    intro a m b
    rw [← List.cons_append, List.getLast?_append]; rfl
  have a2 : ∀ (a : U) (m : List U) (b : U), (a :: (m ++ [b])).getLast? = some b := by
    intro a m b
    rw [← List.cons_append, List.getLast?_append]; rfl
  rw [a1, a2]
  exact ⟨by simp, by simp, p, w, l, e, he, rfl, by simp⟩

/-- Four steps around a square: the points go once around and end in the first point after the start. -/
def square : Nat → Option (ℚ × ℚ × Nat × ℚ) := fun i => match i with
  | 0 => some (1, 0, 1, 1)
  | 1 => some (1, 1, 2, 1)
  | 2 => some (0, 1, 3, 1)
  | 3 => some (0, 1 / 10, 4, 1)
  | _ => none

example : (marchSolve (fun i => (square i).map fun x => ((x.1, x.2.1), x.2.2.1, x.2.2.2, false)) (fun _ _ => [])
    (fun (p : ℚ × ℚ) l => decide (p.1 ^ 2 + p.2 ^ 2 < l ^ 2)) 500 0).map (fun r => ((0, 0) :: r.pts, 0 :: r.uvs, r.term)) =
    some ([(0, 0), (1, 0), (1, 1), (0, 1), (0, 1 / 10), (1, 0)], [0, 1, 2, 3, 4, 0], .loop) := by decide +kernel

/-! ## C268: the loop over the start points -/

theorem deleteAt_eq {α : Type} (l : List α) (rmv : List Nat) : deleteAt l rmv = (l.zipIdx.filter fun x => decide (x.2 ∉ rmv)).map Prod.fst := rfl

theorem deleteAt_sublist {α : Type} (l : List α) (rmv : List Nat) : (deleteAt l rmv).Sublist l := by
  unfold deleteAt
  have : (l.zipIdx.map Prod.fst) = l := by simp
  conv_rhs => rw [← this]
  exact (List.filter_sublist).map _

theorem deleteAt_zip {α β : Type} (l : List α) (m : List β) (h : l.length = m.length) (rmv : List Nat) :
    deleteAt (l.zip m) rmv = (deleteAt l rmv).zip (deleteAt m rmv) ∧ (deleteAt l rmv).length = (deleteAt m rmv).length := by
  have key : ∀ (l : List α) (m : List β) (k : Nat), l.length = m.length →
      (((l.zip m).zipIdx k).filter fun x => decide (x.2 ∉ rmv)).map Prod.fst =
        (((l.zipIdx k).filter fun x => decide (x.2 ∉ rmv)).map Prod.fst).zip (((m.zipIdx k).filter fun x => decide (x.2 ∉ rmv)).map Prod.fst) ∧
      (((l.zipIdx k).filter fun x => decide (x.2 ∉ rmv)).map Prod.fst).length = (((m.zipIdx k).filter fun x => decide (x.2 ∉ rmv)).map Prod.fst).length := by
    intro l
    induction l with
    | nil => intro m k h; cases m with
      | nil => simp
      | cons b m => simp at h
    | cons a l ih =>
      intro m k h
      cases m with
      | nil => simp at h
      | cons b m =>
        obtain ⟨i1, i2⟩ := ih m (k + 1) (by simpa using h)
        simp only [List.zip_cons_cons, List.zipIdx_cons, List.filter_cons]
        by_cases c : k ∈ rmv
        · simp only [c, not_true_eq_false, decide_false, Bool.false_eq_true, if_false]
          exact ⟨i1, i2⟩
        · simp only [c, not_false_eq_true, decide_true, if_true, List.map_cons, List.zip_cons_cons, List.length_cons]
          exact ⟨by rw [i1], by rw [i2]⟩
  exact key l m 0 h

theorem deleteAt_lt {α : Type} (l : List α) (rmv : List Nat) (h0 : 0 ∈ rmv) (hl : l ≠ []) : (deleteAt l rmv).length < l.length := by
  cases l with
  | nil => exact absurd rfl hl
  | cons a l =>
    unfold deleteAt
    rw [List.zipIdx_cons, List.filter_cons]
    simp only [h0, not_true_eq_false, decide_false, Bool.false_eq_true, if_false, List.length_map, List.length_cons]
    exact Nat.lt_succ_of_le (le_trans (List.length_filter_le _ _) (by simp))

theorem deleteAt_mem {α : Type} (l : List α) (rmv : List Nat) (a : α) (h : a ∈ l) : a ∈ deleteAt l rmv ∨ ∃ i ∈ rmv, l[i]? = some a := by
  obtain ⟨i, hi⟩ := List.mem_iff_getElem?.1 h
  by_cases c : i ∈ rmv
  · exact Or.inr ⟨i, c, hi⟩
  · left
    unfold deleteAt
    refine List.mem_map.2 ⟨(a, i), List.mem_filter.2 ⟨?_, by simp [c]⟩, rfl⟩
    rw [List.mem_zipIdx_iff_getElem?]; exact hi

/-- What is assumed of marching: the indices returned are 0 and those of start points close to a point of the curve. -/
def Solves (Close : P → P → K → Prop) (solve : Bool → List P → U → Option (Res P U K)) : Prop :=
  ∀ side D uv r, solve side D uv = some r → 0 ∈ r.ixss ∧
    ∀ i ∈ r.ixss, i = 0 ∨ ∃ p, D[i]? = some p ∧ ∃ x ∈ r.pts.zip r.steps, Close p x.1 (x.2 * 2)

/-- `MarchingMethod.solve` meets it, the balls being those of the tree of the start points. -/
theorem solves_march (Close : P → P → K → Prop) (step : Bool → U → Option (P × U × K × Bool)) (ball : List P → P → K → List Nat)
    (near : P → K → Bool) (maxIter : Nat) (hb : ∀ D x ρ, ∀ i ∈ ball D x ρ, ∃ p, D[i]? = some p ∧ Close p x ρ) :
    Solves Close fun side D uv => marchSolve (step side) (ball D) near maxIter uv := by
  intro side D uv r h
  obtain ⟨x, T, h1, -, -, h2, h3, h4, h5, -⟩ := C267_trace _ _ _ _ _ r h
  refine ⟨by rw [h3]; simp, fun i hi => ?_⟩
  rw [h3] at hi
  rcases List.mem_cons.1 hi with rfl | hi
  · exact Or.inl rfl
  · right
    obtain ⟨y, hy, hi⟩ := List.mem_flatMap.1 hi
    obtain ⟨p, hp, hc⟩ := hb D y.1 _ i hi
    refine ⟨p, hp, (y.1, y.2.2), ?_, hc⟩
    rw [h2, h5]
    have : ∀ (l : List (P × U × K)) (m : List P), y ∈ l → (y.1, y.2.2) ∈ (l.map (fun x : P × U × K => x.1) ++ m).zip (l.map fun x => x.2.2) := by
      intro l m
      induction l with
      | nil => intro h; simp at h
      | cons a l ih =>
        intro h
        rcases List.mem_cons.1 h with rfl | h
        · simp
        · simp only [List.map_cons, List.cons_append, List.zip_cons_cons, List.mem_cons]
          exact Or.inr (ih h)
    exact this _ _ hy

/-- A start point is accounted for: marching from it failed, or it is a point of a curve, or it is within twice the length of a step of
a point that marching gave, which is a point of a curve. -/
def Accounted (Close : P → P → K → Prop) (solve : Bool → List P → U → Option (Res P U K)) (curves : List (List P)) (x : P × U) : Prop :=
  (∃ D, solve true D x.2 = none) ∨ (∃ c ∈ curves, x.1 ∈ c) ∨
  ∃ c ∈ curves, ∃ side D uv r, solve side D uv = some r ∧ (∀ q ∈ r.pts, q ∈ c) ∧ ∃ y ∈ r.pts.zip r.steps, Close x.1 y.1 (y.2 * 2)

theorem accounted_mono {Close : P → P → K → Prop} {solve : Bool → List P → U → Option (Res P U K)} {cs ds : List (List P)} (h : ∀ c ∈ cs, c ∈ ds)
    {x : P × U} (hx : Accounted Close solve cs x) : Accounted Close solve ds x := by
  rcases hx with hx | ⟨c, hc, hx⟩ | ⟨c, hc, hx⟩
  · exact Or.inl hx
  · exact Or.inr (Or.inl ⟨c, h c hc, hx⟩)
  · exact Or.inr (Or.inr ⟨c, h c hc, hx⟩)

theorem next_spec (Close : P → P → K → Prop) (solve : Bool → List P → U → Option (Res P U K)) (hs : Solves Close solve) (s : PS P U)
    (hl : s.data.length = s.uvs.length) (hne : s.data ≠ []) :
    let s' := ppiNext solve s
    s'.data.length = s'.uvs.length ∧ s'.data.length < s.data.length ∧ (s'.data.zip s'.uvs).Sublist (s.data.zip s.uvs) ∧ (∀ c ∈ s.curves, c ∈ s'.curves) ∧
    ∀ x ∈ s.data.zip s.uvs, x ∈ s'.data.zip s'.uvs ∨ Accounted Close solve s'.curves x := by
  intro s'
  have del : ∀ rmv : List Nat, 0 ∈ rmv → ∀ (cs : List (List P)) (cu : List (List U)) (ts : List (List Term)), (∀ c ∈ s.curves, c ∈ cs) →
      s' = ⟨deleteAt s.data rmv, deleteAt s.uvs rmv, cs, cu, ts⟩ → (∀ i ∈ rmv, ∀ x, (s.data.zip s.uvs)[i]? = some x → Accounted Close solve cs x) →
      s'.data.length = s'.uvs.length ∧ s'.data.length < s.data.length ∧ (s'.data.zip s'.uvs).Sublist (s.data.zip s.uvs) ∧ (∀ c ∈ s.curves, c ∈ s'.curves) ∧
      ∀ x ∈ s.data.zip s.uvs, x ∈ s'.data.zip s'.uvs ∨ Accounted Close solve s'.curves x := by
    intro rmv h0 cs cu ts hcs e hacc
    obtain ⟨z1, z2⟩ := deleteAt_zip s.data s.uvs hl rmv
    rw [e]
    refine ⟨z2, deleteAt_lt _ _ h0 hne, ?_, hcs, ?_⟩
    · dsimp only; rw [← z1]; exact deleteAt_sublist _ _
    · intro x hx
      dsimp only
      rw [← z1]
      rcases deleteAt_mem _ rmv x hx with h | ⟨i, hi, h⟩
      · exact Or.inl h
      · exact Or.inr (hacc i hi x h)
  cases hd : s.data with
  | nil => exact absurd hd hne
  | cons p D =>
    cases hu : s.uvs with
    | nil => rw [hd, hu] at hl; simp at hl
    | cons uv us =>
      have h0 : ∀ x, (s.data.zip s.uvs)[0]? = some x → x = (p, uv) := by
        intro x hx; rw [hd, hu] at hx; simpa using hx.symm
      have hget : ∀ (i : Nat) (x : P × U), (s.data.zip s.uvs)[i]? = some x → s.data[i]? = some x.1 := by
        intro i x hx
        rw [List.getElem?_zip_eq_some] at hx
        exact hx.1
      rw [← hd, ← hu]
      have e : s' = ppiNext solve s := rfl
      unfold ppiNext at e
      rw [hd, hu] at e
      dsimp only at e
      rw [← hd, ← hu] at e
      cases h1 : solve true s.data uv with
      | none =>
        rw [h1] at e
        dsimp only at e
        refine del [0] (by simp) s.curves s.cuvs s.terms (fun c hc => hc) e ?_
        intro i hi x hx
        rw [List.mem_singleton] at hi
        subst hi
        rw [h0 x hx]
        exact Or.inl ⟨s.data, h1⟩
      | some r =>
        rw [h1] at e
        dsimp only at e
        have hr := hs _ _ _ _ h1
        cases h2 : (if r.term ≠ .loop then solve false s.data uv else none) with
        | none =>
          rw [h2] at e
          dsimp only at e
          refine del r.ixss hr.1 _ _ _ (fun c hc => by simp [hc]) e ?_
          intro i hi x hx
          rcases hr.2 i hi with rfl | ⟨q, hq, y, hy, hc⟩
          · rw [h0 x hx]
            exact Or.inr (Or.inl ⟨p :: r.pts, by simp, by simp⟩)
          · rw [hget i x hx] at hq
            cases hq
            exact Or.inr (Or.inr ⟨p :: r.pts, by simp, true, s.data, uv, r, h1, fun q hq => by simp [hq], y, hy, hc⟩)
        | some b =>
          rw [h2] at e
          dsimp only at e
          have h2' : solve false s.data uv = some b := by
            by_cases c : r.term ≠ .loop
            · rw [if_pos c] at h2; exact h2
            · rw [if_neg c] at h2; simp at h2
          have hb := hs _ _ _ _ h2'
          refine del (r.ixss ++ b.ixss) (by simp [hr.1]) _ _ _ (fun c hc => by simp [hc]) e ?_
          intro i hi x hx
          rcases List.mem_append.1 hi with hi | hi
          · rcases hr.2 i hi with rfl | ⟨q, hq, y, hy, hc⟩
            · rw [h0 x hx]
              exact Or.inr (Or.inl ⟨b.pts.reverse ++ [p] ++ r.pts, by simp, by simp⟩)
            · rw [hget i x hx] at hq
              cases hq
              exact Or.inr (Or.inr ⟨b.pts.reverse ++ [p] ++ r.pts, by simp, true, s.data, uv, r, h1, fun q hq => by simp [hq], y, hy, hc⟩)
          · rcases hb.2 i hi with rfl | ⟨q, hq, y, hy, hc⟩
            · rw [h0 x hx]
              exact Or.inr (Or.inl ⟨b.pts.reverse ++ [p] ++ r.pts, by simp, by simp⟩)
            · rw [hget i x hx] at hq
              cases hq
              exact Or.inr (Or.inr ⟨b.pts.reverse ++ [p] ++ r.pts, by simp, false, s.data, uv, b, h2', fun q hq => by simp [hq], y, hy, hc⟩)

/-- **C268, partial**: the arrays of points and of parameters stay aligned and shrink in every round; after as many rounds as there are
start points none is left, and each is accounted for: marching from it failed, or it is on a curve returned, or it is within twice the
length of a step of a point of a curve returned.  Missing: in the last case the curve may be another one (below). -/
theorem C268_starts_partial (Close : P → P → K → Prop) (solve : Bool → List P → U → Option (Res P U K)) (hs : Solves Close solve) :
    ∀ (n : Nat) (s : PS P U), s.data.length = s.uvs.length →
      let s' := ppiLoop solve n s
      s'.data.length = s'.uvs.length ∧ (s'.data.zip s'.uvs).Sublist (s.data.zip s.uvs) ∧ (s.data.length ≤ n → s'.data = []) ∧
      (∀ c ∈ s.curves, c ∈ s'.curves) ∧
      ∀ x ∈ s.data.zip s.uvs, x ∈ s'.data.zip s'.uvs ∨ Accounted Close solve s'.curves x := by
  intro n
  induction n with
  | zero =>
    intro s hl
    refine ⟨hl, List.Sublist.refl _, fun h => ?_, fun c hc => hc, fun x hx => Or.inl hx⟩
    have h : s.data.length = 0 := by omega
    exact List.length_eq_zero_iff.1 h
  | succ n ih =>
    intro s hl
    unfold ppiLoop
    by_cases c : s.data = []
    · rw [if_pos c]
      exact ⟨hl, List.Sublist.refl _, fun _ => c, fun c hc => hc, fun x hx => Or.inl hx⟩
    · rw [if_neg c]
      obtain ⟨a1, a2, a3, a4, a5⟩ := next_spec Close solve hs s hl c
      obtain ⟨b1, b2, b3, b4, b5⟩ := ih (ppiNext solve s) a1
      refine ⟨b1, b2.trans a3, fun h => b3 (by omega), fun c hc => b4 c (a4 c hc), fun x hx => ?_⟩
      rcases a5 x hx with h | h
      · exact b5 x h
      · exact Or.inr (accounted_mono b4 h)

/-- **C268 refuted**: of two start points on different curves, the second within twice the step of a point of the first curve, the second
never starts a curve: one curve is returned, made of the start and of the points of marching from it. -/
theorem C268_missed_refuted (solve : Bool → List P → U → Option (Res P U K)) (a b : P) (ua ub : U) (r : Res P U K) (n : Nat)
    (h : solve true [a, b] ua = some r) (h0 : 0 ∈ r.ixss) (h1 : 1 ∈ r.ixss) (hback : r.term = .loop) :
    (ppiLoop solve (n + 1) ⟨[a, b], [ua, ub], [], [], []⟩).curves = [a :: r.pts] := by
  have hd : ∀ {α : Type} (x y : α), deleteAt [x, y] r.ixss = [] := by
    intro α x y
    simp [deleteAt, List.zipIdx_cons, h0, h1]
  unfold ppiLoop
  rw [if_neg (by simp)]
  have : ppiNext solve ⟨[a, b], [ua, ub], [], [], []⟩ = ⟨[], [], [a :: r.pts], [ua :: r.uvs], [[r.term]]⟩ := by
    unfold ppiNext
    dsimp only
    rw [h]
    dsimp only
    rw [if_neg (by simp [hback])]
    dsimp only
    rw [hd, hd]
    rfl
  rw [this]
  cases n <;> simp [ppiLoop]

/-- Marching along lines parallel to the x axis with steps of length 1 between 0 and 4: the starts (2, 0) and (2, 1) are on different
lines; only the line of the first is returned. -/
example :
    let step : Bool → ℤ × ℤ → Option ((ℤ × ℤ) × (ℤ × ℤ) × ℚ × Bool) := fun side u =>
      let w := (if side then u.1 + 1 else u.1 - 1, u.2); some (w, w, 1, decide (w.1 ≤ 0 ∨ 4 ≤ w.1))
    let ball : List (ℤ × ℤ) → ℤ × ℤ → ℚ → List Nat := fun D x ρ =>
      (D.zipIdx.filter fun y => decide ((((y.1.1 - x.1) ^ 2 + (y.1.2 - x.2) ^ 2 : ℤ) : ℚ) ≤ ρ ^ 2)).map Prod.snd
    (ppiLoop (fun side D uv => marchSolve (step side) (ball D) (fun _ _ => false) 500 uv) 2 ⟨[(2, 0), (2, 1)], [(2, 0), (2, 1)], [], [], []⟩).curves =
      [[(0, 0), (1, 0), (2, 0), (3, 0), (4, 0)]] := by decide +kernel

end

/-! ## C269: the free-form iteration -/

section
variable {K : Type} [Field K] [LinearOrder K] [IsStrictOrderedRing K]

theorem onRay_spec (s d p : V3 K) (hd : d ≠ zero) : ∃ t, onRay s d p = s.add (smul t d) ∧ dot (p.sub (onRay s d p)) d = 0 := by
  have hne : d.x ^ 2 + d.y ^ 2 + d.z ^ 2 ≠ 0 := by
    have : dot d d ≠ 0 := fun h => hd (dot_self_eq_zero.1 h)
    intro h; apply this; simp only [dot]; linear_combination h
  refine ⟨dot (p.sub s) d / (d.x ^ 2 + d.y ^ 2 + d.z ^ 2), ?_, ?_⟩
  · simp only [onRay, vectorProjection, add, smul, dot, sub, V3.mk.injEq]
    refine ⟨?_, ?_, ?_⟩ <;> field_simp
  · simp only [onRay, vectorProjection, add, dot, sub]
    field_simp
    ring

/-- The point in the middle lies on both tangent planes. -/
theorem freeMid_spec (a b : SD K) (m : V3 K) (h : freeMid a b = some m) : OnPlane m a.pt a.n ∧ OnPlane m b.pt b.n := by
  unfold freeMid at h
  obtain ⟨l, hl, rfl⟩ := Option.map_eq_some_iff.1 h
  obtain ⟨h1, -, -, h4, -⟩ := C43_two_planes_partial _ _ _ _ l.1 l.2 hl
  obtain ⟨t1, e1, -⟩ := onRay_spec l.1 l.2 a.pt h1
  obtain ⟨t2, e2, -⟩ := onRay_spec l.1 l.2 b.pt h1
  dsimp only
  rw [e1, e2]
  have : (l.1.add (smul t1 l.2)).add (smul (1 / 2) ((l.1.add (smul t2 l.2)).sub (l.1.add (smul t1 l.2)))) = l.1.add (smul (t1 + (t2 - t1) / 2) l.2) := by
    simp only [add, smul, sub, V3.mk.injEq]
    refine ⟨by ring, by ring, by ring⟩
  rw [this]
  exact h4 _

/-- **C269, partial**: what the free-form iteration returns has parameters in both domains; they come from data `a`, `b` of the surfaces
at parameters one step before, whose points are less than `tol` from the point returned, which lies on the tangent planes there.
Missing: nothing is said of the points of the surfaces at the parameters returned (below). -/
theorem C269_found_partial (E : Env K) (s1 s2 : Srf K) (b1 b2 : (K × K) × (K × K)) (tol : K) :
    ∀ (n : Nat) (uv1 uv2 : K × K) (p : Pt K), freeSolve E s1 s2 b1 b2 tol n uv1 uv2 = .found p →
      inRect b1 p.uv1 = true ∧ inRect b2 p.uv2 = true ∧
      ∃ w1 w2 a b, derivData E s1 w1 = some a ∧ derivData E s2 w2 = some b ∧ improveRobust E s1 w1 a.du a.dv a.pt p.xyz = some p.uv1 ∧
        improveRobust E s2 w2 b.du b.dv b.pt p.xyz = some p.uv2 ∧
        E.nrm (p.xyz.sub (s1.ev w1)) < tol ∧ E.nrm (p.xyz.sub (s2.ev w2)) < tol ∧ OnPlane p.xyz a.pt a.n ∧ OnPlane p.xyz b.pt b.n := by
  intro n
  induction n with
  | zero => intro uv1 uv2 p h; simp [freeSolve] at h
  | succ n ih =>
    intro uv1 uv2 p h
    unfold freeSolve at h
    cases ha : derivData E s1 uv1 with
    | none => rw [ha] at h; simp at h
    | some a =>
      cases hb : derivData E s2 uv2 with
      | none => rw [ha, hb] at h; simp at h
      | some b =>
        rw [ha, hb] at h
        dsimp only at h
        have ea : a.uv = uv1 ∧ a.pt = s1.ev uv1 := by
          unfold derivData at ha
          obtain ⟨m, -, rfl⟩ := Option.map_eq_some_iff.1 ha
          exact ⟨rfl, rfl⟩
        have eb : b.uv = uv2 ∧ b.pt = s2.ev uv2 := by
          unfold derivData at hb
          obtain ⟨m, -, rfl⟩ := Option.map_eq_some_iff.1 hb
          exact ⟨rfl, rfl⟩
        cases hm : freeMid a b with
        | none => rw [hm] at h; simp at h
        | some m =>
          rw [hm] at h
          dsimp only at h
          cases h1 : improveRobust E s1 a.uv a.du a.dv a.pt m with
          | none => rw [h1] at h; simp at h
          | some w1 =>
            cases h2 : improveRobust E s2 b.uv b.du b.dv b.pt m with
            | none => rw [h1, h2] at h; simp at h
            | some w2 =>
              rw [h1, h2] at h
              dsimp only at h
              split_ifs at h with c1 c2
              · simp only [Free.found.injEq] at h
                subst h
                simp only [Bool.and_eq_true] at c1
                obtain ⟨o1, o2⟩ := freeMid_spec a b m hm
                refine ⟨c1.1, c1.2, uv1, uv2, a, b, ha, hb, ?_, ?_, ?_, ?_, o1, o2⟩
                · rw [← ea.1]; exact h1
                · rw [← eb.1]; exact h2
                · rw [← ea.2]; exact c2.1
                · rw [← eb.2]; exact c2.2
              · exact ih w1 w2 p h

/-- **C269 refuted**: the surfaces are not evaluated at the parameters returned.  With the orthonormal frame `e1 = (2, 2, 1) / 3`,
`e2 = (-1, 2, -2) / 3`, `e3 = (-2, 1, 2) / 3`: every surface which at (0, 0) has the point 0 and the derivatives `e2` and `e3`, and the
plane through `e2 / 200` with the directions `e1` and `e3`.  With the tolerance 1/100 the answer is the point `e2 / 200` with the
parameters (1/200, 0) of the surface, whatever its point there is. -/
theorem C269_parameters_refuted (E : Env ℚ) (s : Srf ℚ) (b1 b2 : (ℚ × ℚ) × (ℚ × ℚ)) (n : Nat) (h1 : E.nrm ⟨2 / 3, 2 / 3, 1 / 3⟩ = 1)
    (h2 : E.nrm ⟨1 / 3, -2 / 3, 2 / 3⟩ = 1) (h3 : E.nrm ⟨-1 / 600, 1 / 300, -1 / 300⟩ = 1 / 200) (h4 : E.nrm ⟨0, 0, 0⟩ = 0) (he : E.eps = 1 / 1000000000)
    (hb1 : inRect b1 (1 / 200, 0) = true) (hb2 : inRect b2 (0, 0) = true)
    (e0 : s.ev (0, 0) = ⟨0, 0, 0⟩) (eu : s.du (0, 0) = ⟨-1 / 3, 2 / 3, -2 / 3⟩) (ev : s.dv (0, 0) = ⟨-2 / 3, 1 / 3, 2 / 3⟩) :
    freeSolve E s (plane ⟨-1 / 600, 1 / 300, -1 / 300⟩ ⟨2 / 3, 2 / 3, 1 / 3⟩ ⟨-2 / 3, 1 / 3, 2 / 3⟩) b1 b2 (1 / 100) (n + 1) (0, 0) (0, 0) =
      .found ⟨⟨-1 / 600, 1 / 300, -1 / 300⟩, (1 / 200, 0), (0, 0)⟩ := by
  have c1 : cross (⟨-1 / 3, 2 / 3, -2 / 3⟩ : V3 ℚ) ⟨-2 / 3, 1 / 3, 2 / 3⟩ = ⟨2 / 3, 2 / 3, 1 / 3⟩ := by decide +kernel
  have c2 : cross (⟨2 / 3, 2 / 3, 1 / 3⟩ : V3 ℚ) ⟨-2 / 3, 1 / 3, 2 / 3⟩ = ⟨1 / 3, -2 / 3, 2 / 3⟩ := by decide +kernel
  have d1 : derivData E s (0, 0) = some ⟨(0, 0), ⟨0, 0, 0⟩, ⟨-1 / 3, 2 / 3, -2 / 3⟩, ⟨-2 / 3, 1 / 3, 2 / 3⟩, ⟨2 / 3, 2 / 3, 1 / 3⟩⟩ := by
    unfold derivData unit
    rw [eu, ev, c1, h1, e0]
    simp
  have d2 : derivData E (plane ⟨-1 / 600, 1 / 300, -1 / 300⟩ ⟨2 / 3, 2 / 3, 1 / 3⟩ ⟨-2 / 3, 1 / 3, 2 / 3⟩) (0, 0) =
      some ⟨(0, 0), ⟨-1 / 600, 1 / 300, -1 / 300⟩, ⟨2 / 3, 2 / 3, 1 / 3⟩, ⟨-2 / 3, 1 / 3, 2 / 3⟩, ⟨1 / 3, -2 / 3, 2 / 3⟩⟩ := by
    have q : unit E.nrm (cross (⟨2 / 3, 2 / 3, 1 / 3⟩ : V3 ℚ) ⟨-2 / 3, 1 / 3, 2 / 3⟩) = some ⟨1 / 3, -2 / 3, 2 / 3⟩ := by
      unfold unit
      rw [c2, h2]
      simp
    unfold derivData
    show Option.map _ (unit E.nrm (cross (⟨2 / 3, 2 / 3, 1 / 3⟩ : V3 ℚ) ⟨-2 / 3, 1 / 3, 2 / 3⟩)) = _
    rw [q]
    simp [add, smul, plane]
  have m : freeMid (⟨(0, 0), ⟨0, 0, 0⟩, ⟨-1 / 3, 2 / 3, -2 / 3⟩, ⟨-2 / 3, 1 / 3, 2 / 3⟩, ⟨2 / 3, 2 / 3, 1 / 3⟩⟩ : SD ℚ)
      ⟨(0, 0), ⟨-1 / 600, 1 / 300, -1 / 300⟩, ⟨2 / 3, 2 / 3, 1 / 3⟩, ⟨-2 / 3, 1 / 3, 2 / 3⟩, ⟨1 / 3, -2 / 3, 2 / 3⟩⟩ =
      some ⟨-1 / 600, 1 / 300, -1 / 300⟩ := by
    decide +kernel
  have i1 : improveRobust E s (0, 0) ⟨-1 / 3, 2 / 3, -2 / 3⟩ ⟨-2 / 3, 1 / 3, 2 / 3⟩ ⟨0, 0, 0⟩ ⟨-1 / 600, 1 / 300, -1 / 300⟩ = some (1 / 200, 0) := by
    have : improveUv (1 / 1000000000 : ℚ) ⟨-1 / 3, 2 / 3, -2 / 3⟩ ⟨-2 / 3, 1 / 3, 2 / 3⟩ ⟨0, 0, 0⟩ ⟨-1 / 600, 1 / 300, -1 / 300⟩ = some (1 / 200, 0) := by
      decide +kernel
    unfold improveRobust
    rw [he, this]
    simp
  have i2 : improveRobust E (plane ⟨-1 / 600, 1 / 300, -1 / 300⟩ ⟨2 / 3, 2 / 3, 1 / 3⟩ ⟨-2 / 3, 1 / 3, 2 / 3⟩) (0, 0) ⟨2 / 3, 2 / 3, 1 / 3⟩
      ⟨-2 / 3, 1 / 3, 2 / 3⟩ ⟨-1 / 600, 1 / 300, -1 / 300⟩ ⟨-1 / 600, 1 / 300, -1 / 300⟩ = some (0, 0) := by
    have : improveUv (1 / 1000000000 : ℚ) ⟨2 / 3, 2 / 3, 1 / 3⟩ ⟨-2 / 3, 1 / 3, 2 / 3⟩ ⟨-1 / 600, 1 / 300, -1 / 300⟩ ⟨-1 / 600, 1 / 300, -1 / 300⟩ =
      some (0, 0) := by decide +kernel
    unfold improveRobust
    rw [he, this]
    simp
  unfold freeSolve
  rw [d1, d2]
  dsimp only
  rw [m]
  dsimp only
  rw [i1, i2]
  dsimp only
  rw [hb1, hb2]
  have g1 : (⟨-1 / 600, 1 / 300, -1 / 300⟩ : V3 ℚ).sub ⟨0, 0, 0⟩ = ⟨-1 / 600, 1 / 300, -1 / 300⟩ := by simp [sub]
  have g2 : (⟨-1 / 600, 1 / 300, -1 / 300⟩ : V3 ℚ).sub ⟨-1 / 600, 1 / 300, -1 / 300⟩ = ⟨0, 0, 0⟩ := by simp [sub]
  rw [g1, g2, h3, h4]
  norm_num

/-- Such a surface: `u e2 + v e3 + 4000000 u ^ 2 e1`, whose point at the parameters returned is 100 away from the point returned. -/
example : let s : Srf ℚ := ⟨fun x => ⟨-x.1 / 3 - 2 * x.2 / 3 + 8000000 / 3 * x.1 ^ 2, 2 * x.1 / 3 + x.2 / 3 + 8000000 / 3 * x.1 ^ 2,
        -2 * x.1 / 3 + 2 * x.2 / 3 + 4000000 / 3 * x.1 ^ 2⟩,
      fun x => ⟨-1 / 3 + 16000000 / 3 * x.1, 2 / 3 + 16000000 / 3 * x.1, -2 / 3 + 8000000 / 3 * x.1⟩, fun _ => ⟨-2 / 3, 1 / 3, 2 / 3⟩⟩
    s.ev (0, 0) = ⟨0, 0, 0⟩ ∧ s.du (0, 0) = ⟨-1 / 3, 2 / 3, -2 / 3⟩ ∧ s.dv (0, 0) = ⟨-2 / 3, 1 / 3, 2 / 3⟩ ∧
    (s.ev (1 / 200, 0)).sub ⟨-1 / 600, 1 / 300, -1 / 300⟩ = ⟨200 / 3, 200 / 3, 100 / 3⟩ := by
  refine ⟨?_, ?_, ?_, ?_⟩ <;> decide +kernel

/-- **C269 refuted**: where both normals have no component along x nothing is found. -/
theorem C269_aligned_refuted (E : Env K) (s1 s2 : Srf K) (b1 b2 : (K × K) × (K × K)) (tol : K) (n : Nat) (uv1 uv2 : K × K) (a b : SD K)
    (ha : derivData E s1 uv1 = some a) (hb : derivData E s2 uv2 = some b) (h1 : a.n.x = 0) (h2 : b.n.x = 0) :
    freeSolve E s1 s2 b1 b2 tol (n + 1) uv1 uv2 = .raised := by
  unfold freeSolve
  rw [ha, hb]
  dsimp only
  have : freeMid a b = none := by
    unfold freeMid
    rw [C43_two_planes_refuted _ _ _ _ h1 h2]
    rfl
  rw [this]

/-- The planes `z = 0` and `y = 0` at a point that they share. -/
example : let E : Env ℚ := ⟨fun v => |v.x| + |v.y| + |v.z|, fun x => |x.1| + |x.2|, fun x => x, 1 / 1000, 1 / 1000, 100⟩
    (derivData E (plane ⟨0, 0, 0⟩ ⟨1, 0, 0⟩ ⟨0, 1, 0⟩) (1, 0)).map (fun a => (a.pt.x, a.n.x)) = some (1, 0) ∧
    (derivData E (plane ⟨0, 0, 0⟩ ⟨1, 0, 0⟩ ⟨0, 0, 1⟩) (1, 0)).map (fun a => (a.pt.x, a.n.x)) = some (1, 0) := by decide +kernel

/-! ## C270: points on the boundaries -/

/-- **C270**: every point found on a boundary is within `2 * tol` of one that is kept, provided points found are within `tol` of the
surfaces at their parameters (C258); the points kept differ in the point and in both pairs of parameters. -/
theorem C270_kept (tol : K) (s1 s2 : K × K → V3 K) : ∀ (ps kept : List (Pt K)),
    (∀ p ∈ kept ++ ps, dot (p.xyz.sub (s1 p.uv1)) (p.xyz.sub (s1 p.uv1)) ≤ tol ^ 2 ∧ dot (p.xyz.sub (s2 p.uv2)) (p.xyz.sub (s2 p.uv2)) ≤ tol ^ 2) →
    kept.Pairwise (fun a b => a.xyz ≠ b.xyz ∧ a.uv1 ≠ b.uv1 ∧ a.uv2 ≠ b.uv2) →
    (keepNew kept ps).Pairwise (fun a b => a.xyz ≠ b.xyz ∧ a.uv1 ≠ b.uv1 ∧ a.uv2 ≠ b.uv2) ∧ (∀ p ∈ kept, p ∈ keepNew kept ps) ∧
    (∀ p ∈ keepNew kept ps, p ∈ kept ++ ps) ∧
    ∀ p ∈ ps, ∃ q ∈ keepNew kept ps, dot (p.xyz.sub q.xyz) (p.xyz.sub q.xyz) ≤ (2 * tol) ^ 2 := by
  have tri : ∀ a b c : V3 K, dot (a.sub c) (a.sub c) ≤ tol ^ 2 → dot (b.sub c) (b.sub c) ≤ tol ^ 2 → dot (a.sub b) (a.sub b) ≤ (2 * tol) ^ 2 := by
    intro a b c h1 h2
    have := dot_self_nonneg ((a.sub c).add (b.sub c))
    simp only [dot, sub, add] at *
    nlinarith
  intro ps
  induction ps with
  | nil => intro kept _ h; exact ⟨h, fun p hp => hp, fun p hp => by rw [List.append_nil]; exact hp, by simp⟩
  | cons a ps ih =>
    intro kept hk h
    unfold keepNew
    split_ifs with c
    · obtain ⟨i1, i2, i3, i4⟩ := ih (kept ++ [a]) (by simpa using hk) (by
        rw [List.pairwise_append]
        refine ⟨h, by simp, fun x hx y hy => ?_⟩
        rw [List.mem_singleton] at hy
        subst hy
        have := List.all_eq_true.1 c x hx
        simp only [Bool.and_eq_true, decide_eq_true_eq] at this
        refine ⟨fun e => ?_, this.1.2, this.2⟩
        rcases this.1.1 with h | h | h <;> exact h (by rw [e]))
      refine ⟨i1, fun p hp => i2 p (by simp [hp]), fun p hp => by simpa using i3 p hp, fun p hp => ?_⟩
      rcases List.mem_cons.1 hp with rfl | hp
      · refine ⟨p, i2 p (by simp), ?_⟩
        have : dot (p.xyz.sub p.xyz) (p.xyz.sub p.xyz) = 0 := by simp [dot, sub]
        rw [this]; positivity
      · exact i4 p hp
    · obtain ⟨i1, i2, i3, i4⟩ := ih kept (fun p hp => hk p (by
        rcases List.mem_append.1 hp with h | h <;> simp [h])) h
      refine ⟨i1, i2, fun p hp => ?_, fun p hp => ?_⟩
      · rcases List.mem_append.1 (i3 p hp) with h | h <;> simp [h]
      · rcases List.mem_cons.1 hp with rfl | hp
        · have : ∃ q ∈ kept, ¬ ((q.xyz.x ≠ p.xyz.x ∨ q.xyz.y ≠ p.xyz.y ∨ q.xyz.z ≠ p.xyz.z) ∧ q.uv1 ≠ p.uv1 ∧ q.uv2 ≠ p.uv2) := by
            by_contra hn
            push Not at hn
            apply c
            rw [List.all_eq_true]
            intro q hq
            have hq := hn q hq
            simp only [Bool.and_eq_true, decide_eq_true_eq]
            exact ⟨⟨hq.1, hq.2.1⟩, hq.2.2⟩
          obtain ⟨q, hq, hnq⟩ := this
          refine ⟨q, i2 q hq, ?_⟩
          have hp1 := hk p (by simp)
          have hq1 := hk q (by simp [hq])
          by_cases c1 : q.uv1 = p.uv1
          · rw [c1] at hq1; exact tri _ _ _ hp1.1 hq1.1
          · by_cases c2 : q.uv2 = p.uv2
            · rw [c2] at hq1; exact tri _ _ _ hp1.2 hq1.2
            · have : q.xyz = p.xyz := by
                by_contra hx
                apply hnq
                refine ⟨?_, c1, c2⟩
                by_contra hy
                push Not at hy
                exact hx (V3.ext hy.1 hy.2.1 hy.2.2)
              rw [this]
              have : dot (p.xyz.sub p.xyz) (p.xyz.sub p.xyz) = 0 := by simp [dot, sub]
              rw [this]; positivity
        · exact i4 p hp

/-- Two points of the second boundary with the same parameters on the first surface: one is kept. -/
example : ((keepNew [] [⟨⟨0, 0, 0⟩, (0, 0), (0, 0)⟩, ⟨⟨1 / 10, 0, 0⟩, (0, 0), (1, 0)⟩, ⟨⟨1, 0, 0⟩, (1, 0), (0, 1)⟩] : List (Pt ℚ)).map fun p => p.xyz.x) =
    [0, 1] := by decide +kernel

end

end Verif.Ssx
