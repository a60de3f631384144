import Verif.March.Props3

/-! # C222: `marching_implicit_curve_points`, C223: the iterator over the intersection curves -/

set_option linter.unusedSectionVars false

noncomputable section

open scoped InnerProductSpace Classical

namespace Verif.March

variable {E : Type*} [NormedAddCommGroup E] [InnerProductSpace ℝ E]

theorem implLoop_spec (cp tan : E → E) (step : ℝ) (maxPts : Option ℕ) (e : E) (fuel : ℕ) : ∀ (pts : List E) (s : E) (d : ℝ) (l : List E),
    implLoop cp tan step maxPts e fuel pts s d = .done l →
    ∃ mid, l = pts ++ mid ++ [e] ∧ (∀ q ∈ mid, ∃ x, q = cp x) ∧
      ∀ m, maxPts = some m → (pts ++ mid).length ≤ max pts.length m := by
  induction fuel with
  | zero =>
    intro pts s d l h
    unfold implLoop at h
    split_ifs at h with c
    cases h
    exact ⟨[], by simp, by simp, fun m _ => by simp⟩
  | succ n ih =>
    intro pts s d l h
    unfold implLoop at h
    by_cases c : d > step / 2 ∧ ∀ m, maxPts = some m → pts.length < m
    · rw [if_pos c] at h
      obtain ⟨mid, h1, h2, h3⟩ := ih _ _ _ _ h
      refine ⟨cp (s + step • tan s) :: mid, by simp [h1], ?_, ?_⟩
      · intro q hq
        rcases List.mem_cons.1 hq with rfl | hq
        · exact ⟨_, rfl⟩
        · exact h2 q hq
      · intro m hm
        have a := h3 m hm
        have b := c.2 m hm
        simp only [List.length_append, List.length_cons, List.length_nil] at a ⊢
        omega
    · rw [if_neg c] at h
      cases h
      exact ⟨[], by simp, by simp, fun m _ => by simp⟩

/-- **C222, ends.**  The list starts at the curve point of `v0`, ends at the curve point of `v1` (or `v0`), consists of curve
points, and has at most `max_points + 1` members if `max_points` is at least 2. -/
theorem C222_ends (cp tan : E → E) (step : ℝ) (maxPts : Option ℕ) (v0 : E) (v1 : Option E) (fuel : ℕ) (l : List E)
    (h : implMarch cp tan step maxPts v0 v1 fuel = .done l) :
    l.head? = some (cp v0) ∧ l.getLast? = some (cp (v1.getD v0)) ∧ (∀ q ∈ l, ∃ x, q = cp x) ∧
      ∀ m, maxPts = some m → l.length ≤ max 2 m + 1 := by
  obtain ⟨mid, h1, h2, h3⟩ := implLoop_spec cp tan step maxPts _ fuel _ _ _ l h
  subst h1
  refine ⟨by simp, by rw [List.getLast?_concat], ?_, ?_⟩
  · intro q hq
    simp only [List.mem_append, List.mem_cons, List.not_mem_nil, or_false] at hq
    rcases hq with ((rfl | rfl) | hq) | rfl
    · exact ⟨_, rfl⟩
    · exact ⟨_, rfl⟩
    · exact h2 q hq
    · exact ⟨_, rfl⟩
  · intro m hm
    have := h3 m hm
    simp only [List.length_append, List.length_cons, List.length_nil] at this ⊢
    omega

/-- `curve_point` of a line, and the tangent. -/
def lineCp (n : E) (c delta : ℝ) (x : E) : E := (curvePoint (lin n c) (fun _ => n) delta 1 x).getD x

theorem lineCp_on (n : E) (hn : n ≠ 0) (c delta : ℝ) (hd : 0 ≤ delta) (x : E) (hx : lin n c x = 0) : lineCp n c delta x = x := by
  obtain ⟨q, -, h2, h3, -⟩ := C219_plane n hn c delta 1 le_rfl x
  unfold lineCp
  rw [h3 hd, Option.getD_some]
  have := h2 x hx
  rw [sub_self, norm_zero] at this
  exact (sub_eq_zero.1 (norm_le_zero_iff.1 this)).symm

theorem impl_round (n t : E) (hn : n ≠ 0) (o : ⟪n, t⟫_ℝ = 0) (c delta : ℝ) (hd : 0 ≤ delta) (p : E)
    (hp : lin n c p = 0) (step : ℝ) (maxPts : Option ℕ) (e : E) (fuel i : ℕ) (d : ℝ) :
    implLoop (lineCp n c delta) (fun _ => t) step maxPts e fuel (linePts p t step (i + 1)) (p + ((i : ℝ) * step) • t) d =
    if d > step / 2 ∧ (∀ m, maxPts = some m → i + 1 < m) then
      match fuel with
      | 0 => .running
      | k + 1 => implLoop (lineCp n c delta) (fun _ => t) step maxPts e k (linePts p t step (i + 1 + 1))
          (p + (((i + 1 : ℕ) : ℝ) * step) • t) ‖p + (((i + 1 : ℕ) : ℝ) * step) • t - e‖
    else .done (linePts p t step (i + 1) ++ [e]) := by
  have hlen : (linePts p t step (i + 1)).length = i + 1 := by simp [linePts]
  have hadd : p + ((i : ℝ) * step) • t + step • t = p + (((i + 1 : ℕ) : ℝ) * step) • t := by
    push_cast; module
  conv_lhs => unfold implLoop
  simp only [hlen]
  cases fuel with
  | zero => rfl
  | succ k =>
    dsimp only
    rw [hadd, lineCp_on n hn c delta hd _ (lin_along n t c _ p hp o), ← linePts_succ]

theorem impl_start (n t : E) (hn : n ≠ 0) (o : ⟪n, t⟫_ℝ = 0) (c delta : ℝ) (hd : 0 ≤ delta) (p : E)
    (hp : lin n c p = 0) (step : ℝ) (maxPts : Option ℕ) (v1 : Option E) (h1 : lin n c (v1.getD p) = 0) (fuel : ℕ) :
    implMarch (lineCp n c delta) (fun _ => t) step maxPts p v1 fuel =
      implLoop (lineCp n c delta) (fun _ => t) step maxPts (v1.getD p) fuel (linePts p t step (1 + 1))
        (p + (((1 : ℕ) : ℝ) * step) • t) step := by
  unfold implMarch
  dsimp only
  rw [lineCp_on n hn c delta hd p hp, lineCp_on n hn c delta hd _ h1, lineCp_on n hn c delta hd _ (lin_along n t c _ p hp o)]
  simp [linePts, List.range_succ]

theorem impl_run (n t : E) (hn : n ≠ 0) (o : ⟪n, t⟫_ℝ = 0) (c delta : ℝ) (hd : 0 ≤ delta) (p : E)
    (hp : lin n c p = 0) (step : ℝ) (maxPts : Option ℕ) (e : E) (k : ℕ) : ∀ (i fuel : ℕ) (d : ℝ), d > step / 2 →
      (∀ j, i ≤ j → j < i + k → (∀ m, maxPts = some m → j + 1 < m) ∧
        (j + 1 < i + k → ‖p + (((j + 1 : ℕ) : ℝ) * step) • t - e‖ > step / 2)) →
      implLoop (lineCp n c delta) (fun _ => t) step maxPts e (fuel + k) (linePts p t step (i + 1)) (p + ((i : ℝ) * step) • t) d =
      implLoop (lineCp n c delta) (fun _ => t) step maxPts e fuel (linePts p t step (i + k + 1))
        (p + (((i + k : ℕ) : ℝ) * step) • t) (if k = 0 then d else ‖p + (((i + k : ℕ) : ℝ) * step) • t - e‖) := by
  induction k with
  | zero => intro i fuel d _ _; simp
  | succ k ih =>
    intro i fuel d hdd hj
    obtain ⟨j1, j2⟩ := hj i le_rfl (by omega)
    rw [impl_round n t hn o c delta hd p hp, if_pos ⟨hdd, j1⟩, show fuel + (k + 1) = (fuel + k) + 1 from rfl]
    dsimp only
    rcases Nat.eq_zero_or_pos k with rfl | hk
    · simp
    · rw [ih (i + 1) fuel _ (j2 (by omega)) (fun j a b => ⟨(hj j (by omega) (by omega)).1, fun c => (hj j (by omega) (by omega)).2 (by omega)⟩)]
      rw [if_neg (by omega), if_neg (by omega), show i + 1 + k = i + (k + 1) by omega]

theorem unit_dist (t : E) (ht : ‖t‖ = 1) (p : E) (a b : ℝ) : ‖(p + a • t) - (p + b • t)‖ = |a - b| := by
  rw [add_sub_add_left_eq_sub, ← sub_smul, norm_smul, ht, mul_one, Real.norm_eq_abs]

/-- **C222 on a line.**  With an end point on the line, at least two steps ahead, the list consists of points at equal
distances `step` up to the one next to the end point, and the end point. -/
theorem C222_line (n t : E) (hn : n ≠ 0) (ht : ‖t‖ = 1) (o : ⟪n, t⟫_ℝ = 0) (c delta : ℝ) (hd : 0 ≤ delta) (p : E)
    (hp : lin n c p = 0) (step : ℝ) (hs : 0 < step) (k : ℕ) (hk : 2 ≤ k) (a : ℝ) (ha : |k * step - a| < step / 2) (fuel : ℕ)
    (hf : k ≤ fuel) :
    implMarch (lineCp n c delta) (fun _ => t) step none p (some (p + a • t)) fuel =
      .done (linePts p t step (k + 1) ++ [p + a • t]) := by
  rw [impl_start n t hn o c delta hd p hp step none _ (lin_along n t c _ p hp o)]
  obtain ⟨j, rfl⟩ : ∃ j, k = j + 1 := ⟨k - 1, by omega⟩
  obtain ⟨f, rfl⟩ : ∃ f, fuel = f + j := ⟨fuel - j, by omega⟩
  rw [impl_run n t hn o c delta hd p hp step none _ j 1 f step (by linarith)]
  · rw [impl_round n t hn o c delta hd p hp, if_neg (by omega : ¬j = 0), if_neg, Nat.add_comm 1 j]
    · rfl
    · rintro ⟨h, -⟩
      rw [Option.getD_some, unit_dist t ht, Nat.add_comm 1 j] at h
      linarith
  · intro i h1 h2
    refine ⟨by simp, fun h3 => ?_⟩
    rw [Option.getD_some, unit_dist t ht, abs_sub_comm]
    have hj : ((i + 1 : ℕ) : ℝ) + 1 ≤ ((j + 1 : ℕ) : ℝ) := by
      have : i + 1 + 1 ≤ j + 1 := by omega
      exact_mod_cast this
    have : ((i + 1 : ℕ) : ℝ) * step + step ≤ ((j + 1 : ℕ) : ℝ) * step := by nlinarith
    refine lt_of_lt_of_le ?_ (le_abs_self _)
    rw [abs_lt] at ha
    linarith [ha.1]

theorem impl_far (t : E) (ht : ‖t‖ = 1) (p : E) (step : ℝ) (hs : 0 < step) (a : ℝ) (ha : a < 3 / 2 * step) (i : ℕ) (hi : 1 ≤ i) :
    ‖p + (((i + 1 : ℕ) : ℝ) * step) • t - (p + a • t)‖ > step / 2 := by
  rw [unit_dist t ht]
  have h1 : (1 : ℝ) ≤ i := by exact_mod_cast hi
  refine lt_of_lt_of_le ?_ (le_abs_self _)
  push_cast
  nlinarith

/-- **C222, refuted for end points less than one and a half steps ahead** (as without an end point): the march along the
line passes the end and never stops without `max_points`. -/
theorem C222_open_refuted (n t : E) (hn : n ≠ 0) (ht : ‖t‖ = 1) (o : ⟪n, t⟫_ℝ = 0) (c delta : ℝ) (hd : 0 ≤ delta) (p : E)
    (hp : lin n c p = 0) (step : ℝ) (hs : 0 < step) (a : ℝ) (ha : a < 3 / 2 * step) (fuel : ℕ) :
    implMarch (lineCp n c delta) (fun _ => t) step none p (some (p + a • t)) fuel = .running := by
  rw [impl_start n t hn o c delta hd p hp step none _ (lin_along n t c _ p hp o)]
  have h := impl_run n t hn o c delta hd p hp step none (p + a • t) fuel 1 0 step (by linarith)
    (fun j h1 _ => ⟨by simp, fun _ => impl_far t ht p step hs a ha j h1⟩)
  rw [Nat.zero_add] at h
  rw [Option.getD_some, h, impl_round n t hn o c delta hd p hp, if_pos]
  refine ⟨?_, by simp⟩
  split_ifs with h0
  · linarith
  · rw [Nat.add_comm 1 fuel]
    exact impl_far t ht p step hs a ha fuel (by omega)

/-- **C222, number refuted.**  With `max_points = m` that march returns `m + 1` points. -/
theorem C222_count_refuted (n t : E) (hn : n ≠ 0) (ht : ‖t‖ = 1) (o : ⟪n, t⟫_ℝ = 0) (c delta : ℝ) (hd : 0 ≤ delta) (p : E)
    (hp : lin n c p = 0) (step : ℝ) (hs : 0 < step) (m : ℕ) (hm : 2 ≤ m) (fuel : ℕ) (hf : m ≤ fuel) :
    implMarch (lineCp n c delta) (fun _ => t) step (some m) p none fuel = .done (linePts p t step m ++ [p]) ∧
    (linePts p t step m ++ [p]).length = m + 1 := by
  refine ⟨?_, by simp [linePts]⟩
  rw [impl_start n t hn o c delta hd p hp step (some m) none hp]
  obtain ⟨k, rfl⟩ : ∃ k, m = k + 2 := ⟨m - 2, by omega⟩
  obtain ⟨f, rfl⟩ : ∃ f, fuel = f + k := ⟨fuel - k, by omega⟩
  have hz : p = p + (0 : ℝ) • t := by simp
  rw [Option.getD_none, impl_run n t hn o c delta hd p hp step (some (k + 2)) p k 1 f step (by linarith)]
  · rw [impl_round n t hn o c delta hd p hp, if_neg]
    · rw [show 1 + k + 1 = k + 2 by omega]
    · rintro ⟨-, h⟩
      have := h _ rfl
      omega
  · intro j h1 h2
    refine ⟨fun m' hm' => ?_, fun _ => ?_⟩
    · cases hm'; omega
    · have := impl_far t ht p step hs 0 (by linarith) j h1
      rwa [← hz] at this

/-- The line with normal 1 in `ℂ`, tangent `I`, through 3. -/
example : (1 : ℂ) ≠ 0 ∧ ‖Complex.I‖ = 1 ∧ ⟪(1 : ℂ), Complex.I⟫_ℝ = 0 ∧ lin (1 : ℂ) 3 3 = 0 ∧ |((4 : ℕ) : ℝ) * 0.2 - 0.75| < 0.2 / 2 := by
  refine ⟨one_ne_zero, by simp, by simp, by simp [lin], by norm_num [abs_lt]⟩

end Verif.March

end

namespace Verif.March.Iter

variable {α : Type}

theorem mem_ball (near : α → α → Bool) (p : α) (l : List α) : ∀ k i, i ∈ ball near p k l ↔ ∃ j a, i = k + j ∧ l[j]? = some a ∧ near p a = true := by
  induction l with
  | nil => intro k i; simp [ball]
  | cons b l ih =>
    intro k i
    unfold ball
    constructor
    · intro h
      split_ifs at h with hb
      · rcases List.mem_cons.1 h with rfl | h
        · exact ⟨0, b, rfl, rfl, hb⟩
        · obtain ⟨j, a, e, h1, h2⟩ := (ih (k + 1) i).1 h
          exact ⟨j + 1, a, by omega, h1, h2⟩
      · obtain ⟨j, a, e, h1, h2⟩ := (ih (k + 1) i).1 h
        exact ⟨j + 1, a, by omega, h1, h2⟩
    · rintro ⟨j, a, e, h1, h2⟩
      cases j with
      | zero =>
        obtain rfl : b = a := by simpa using h1
        rw [if_pos h2]
        exact List.mem_cons.2 (Or.inl (by omega))
      | succ j =>
        have : i ∈ ball near p (k + 1) l := (ih (k + 1) i).2 ⟨j, a, by omega, by simpa using h1, h2⟩
        split_ifs
        · exact List.mem_cons_of_mem _ this
        · exact this

theorem deleteAt_eq (ixs : List ℕ) (q : α → Bool) (l : List α) : ∀ k, (∀ j a, l[j]? = some a → (k + j ∈ ixs ↔ q a = true)) →
    deleteAt ixs k l = l.filter fun a => !q a := by
  induction l with
  | nil => intro k _; rfl
  | cons b l ih =>
    intro k h
    have h0 := h 0 b rfl
    have ih' := ih (k + 1) (fun j a hj => by rw [show k + 1 + j = k + (j + 1) by omega]; exact h (j + 1) a (by simpa using hj))
    unfold deleteAt
    by_cases hb : q b = true
    · rw [if_pos (by simpa using h0.2 hb), ih']
      simp [hb]
    · rw [if_neg (fun c => hb (h0.1 (by simpa using c))), ih']
      simp [hb]

/-- The points left after a curve are those with no traced point near. -/
theorem rebuild_eq (near : α → α → Bool) (res points : List α) :
    deleteAt (res.flatMap fun p => ball near p 0 points) 0 points = points.filter fun a => !(res.any fun p => near p a) := by
  apply deleteAt_eq
  intro j a hj
  simp only [List.mem_flatMap, mem_ball, List.any_eq_true, Nat.zero_add]
  constructor
  · rintro ⟨p, hp, j', a', rfl, h1, h2⟩
    rw [hj] at h1
    cases h1
    exact ⟨p, hp, h2⟩
  · rintro ⟨p, hp, h⟩
    exact ⟨p, hp, j, a, rfl, hj, h⟩

theorem deleteAt_nil (l : List α) : ∀ k, deleteAt [] k l = l := by
  induction l with
  | nil => intro k; rfl
  | cons a l ih => intro k; simp [deleteAt, ih]

/-- The points of a state, with the next start. -/
def all (s : St α) : List α := s.initial.toList ++ s.points

/-- A state of the iterator: without a next start there are no points. -/
def Ok (s : St α) : Prop := s.initial = none → s.points = []

theorem all_rebuild (points : List α) (q : List ℕ) : all (rebuild points q) = deleteAt q 0 points ∧ Ok (rebuild points q) := by
  unfold rebuild all Ok
  cases deleteAt q 0 points <;> simp

theorem all_init (points : List α) : all (init points) = points ∧ Ok (init points) := by
  have := all_rebuild points []
  rw [deleteAt_nil] at this
  exact this

/-- One round. -/
theorem run_succ (near : α → α → Bool) (trace : α → List α) (n : ℕ) (s : St α) (hs : Ok s) :
    (∃ s0, s.initial = none ∧ all s = [] ∧ run near trace (n + 1) s = s0 ∧ s0 = ([], true)) ∨
    ∃ a s', s.initial = some a ∧ Ok s' ∧ all s = a :: s.points ∧
      all s' = s.points.filter (fun b => !((trace a).any fun p => near p b)) ∧
      run near trace (n + 1) s = ((a, trace a) :: (run near trace n s').1, (run near trace n s').2) := by
  cases hi : s.initial with
  | none =>
    left
    refine ⟨([], true), rfl, by simp [all, hi, hs hi], ?_, rfl⟩
    unfold run
    simp [hi]
  | some a =>
    right
    refine ⟨a, rebuild s.points ((trace a).flatMap fun p => ball near p 0 s.points), rfl, (all_rebuild _ _).2, by simp [all, hi], ?_, ?_⟩
    · rw [(all_rebuild _ _).1, rebuild_eq]
    · conv_lhs => unfold run
      simp [hi, next]

/-- **C223, termination.**  A loop over the iterator ends after at most as many curves as there are sampled points. -/
theorem C223_terminates (near : α → α → Bool) (trace : α → List α) (points : List α) (fuel : ℕ) (hf : points.length ≤ fuel) :
    (run near trace fuel (init points)).2 = true ∧ (run near trace fuel (init points)).1.length ≤ points.length := by
  have key : ∀ fuel (s : St α), Ok s → (all s).length ≤ fuel →
      (run near trace fuel s).2 = true ∧ (run near trace fuel s).1.length ≤ (all s).length := by
    intro fuel
    induction fuel with
    | zero =>
      intro s hs h
      have : all s = [] := List.length_eq_zero_iff.1 (by omega)
      have hn : s.initial = none := by
        cases hi : s.initial with
        | none => rfl
        | some a => simp [all, hi] at this
      simp [run, hn]
    | succ n ih =>
      intro s hs h
      rcases run_succ near trace n s hs with ⟨s0, -, -, h1, rfl⟩ | ⟨a, s', -, hs', e1, e2, h1⟩
      · rw [h1]; simp
      · have hl : (all s').length ≤ s.points.length := by rw [e2]; exact List.length_filter_le _ _
        rw [e1, List.length_cons] at h ⊢
        obtain ⟨i1, i2⟩ := ih s' hs' (by omega)
        rw [h1]
        refine ⟨i1, ?_⟩
        simp only [List.length_cons]
        omega
  have := key fuel (init points) (all_init points).2 (by rw [(all_init points).1]; exact hf)
  rwa [(all_init points).1] at this

/-- **C223, nothing is lost.**  Every sampled point is the start of a curve or near a point of a curve returned. -/
theorem C223_covered (near : α → α → Bool) (trace : α → List α) (points : List α) (fuel : ℕ) (hf : points.length ≤ fuel) :
    ∀ b ∈ points, ∃ c ∈ (run near trace fuel (init points)).1, b = c.1 ∨ ∃ p ∈ c.2, near p b = true := by
  have key : ∀ fuel (s : St α), Ok s → (all s).length ≤ fuel →
      ∀ b ∈ all s, ∃ c ∈ (run near trace fuel s).1, b = c.1 ∨ ∃ p ∈ c.2, near p b = true := by
    intro fuel
    induction fuel with
    | zero =>
      intro s hs h b hb
      have : all s = [] := List.length_eq_zero_iff.1 (by omega)
      rw [this] at hb
      cases hb
    | succ n ih =>
      intro s hs h b hb
      rcases run_succ near trace n s hs with ⟨s0, -, e, -, -⟩ | ⟨a, s', -, hs', e1, e2, h1⟩
      · rw [e] at hb; cases hb
      · have hl : (all s').length ≤ s.points.length := by rw [e2]; exact List.length_filter_le _ _
        rw [e1] at hb
        rw [e1, List.length_cons] at h
        rw [h1]
        rcases List.mem_cons.1 hb with rfl | hb
        · exact ⟨(b, trace b), List.mem_cons_self, Or.inl rfl⟩
        · by_cases hn : ((trace a).any fun p => near p b) = true
          · obtain ⟨p, hp, hpb⟩ := List.any_eq_true.1 hn
            exact ⟨(a, trace a), List.mem_cons_self, Or.inr ⟨p, hp, hpb⟩⟩
          · have : b ∈ all s' := by
              rw [e2]
              exact List.mem_filter.2 ⟨hb, by simpa using hn⟩
            obtain ⟨c, hc, h2⟩ := ih s' hs' (by omega) b this
            exact ⟨c, List.mem_cons_of_mem _ hc, h2⟩
  have := key fuel (init points) (all_init points).2 (by rw [(all_init points).1]; exact hf)
  rwa [(all_init points).1] at this

/-- **C223, starts.**  Curves start at sampled points, and no curve starts near a point of an earlier curve; each is the
trace of its start. -/
theorem C223_starts (near : α → α → Bool) (trace : α → List α) (points : List α) (fuel : ℕ) :
    (∀ c ∈ (run near trace fuel (init points)).1, c.1 ∈ points ∧ c.2 = trace c.1) ∧
    (run near trace fuel (init points)).1.Pairwise fun c d => ∀ p ∈ c.2, near p d.1 = false := by
  have key : ∀ fuel (s : St α), Ok s →
      (∀ c ∈ (run near trace fuel s).1, c.1 ∈ all s ∧ c.2 = trace c.1) ∧
      (run near trace fuel s).1.Pairwise fun c d => ∀ p ∈ c.2, near p d.1 = false := by
    intro fuel
    induction fuel with
    | zero => intro s hs; simp [run]
    | succ n ih =>
      intro s hs
      rcases run_succ near trace n s hs with ⟨s0, -, -, h1, rfl⟩ | ⟨a, s', -, hs', e1, e2, h1⟩
      · rw [h1]; simp
      · obtain ⟨i1, i2⟩ := ih s' hs'
        rw [h1]
        refine ⟨?_, ?_⟩
        · intro c hc
          rcases List.mem_cons.1 hc with rfl | hc
          · exact ⟨by rw [e1]; exact List.mem_cons_self, rfl⟩
          · obtain ⟨j1, j2⟩ := i1 c hc
            rw [e2] at j1
            exact ⟨by rw [e1]; exact List.mem_cons_of_mem _ (List.mem_filter.1 j1).1, j2⟩
        · rw [List.pairwise_cons]
          refine ⟨?_, i2⟩
          intro d hd p hp
          obtain ⟨j1, -⟩ := i1 d hd
          rw [e2] at j1
          have := (List.mem_filter.1 j1).2
          simp only [Bool.not_eq_true', List.any_eq_false] at this
          simpa using this p hp
  have := key fuel (init points) (all_init points).2
  rwa [(all_init points).1] at this

/-- The march along the integers up to `B`, as of `C221_bounds_refuted`. -/
def upTo (B a : ℤ) : List ℤ := (List.range (B - a + 1).toNat).map fun i : ℕ => a + i

theorem mem_upTo (B a x : ℤ) : x ∈ upTo B a ↔ a ≤ x ∧ x ≤ B := by
  unfold upTo
  simp only [List.mem_map, List.mem_range]
  constructor
  · rintro ⟨i, hi, rfl⟩; omega
  · rintro ⟨h1, h2⟩
    exact ⟨(x - a).toNat, by omega, by omega⟩

/-- **C223, refuted for open curves.**  A curve which ends at the bounds is followed in one direction only.  Of two
samples on it the one further back gives a second curve which contains the whole first one. -/
theorem C223_open_refuted (B a b : ℤ) (ha : a ≤ B) (hb : b < a - 1) (fuel : ℕ) (hf : 2 ≤ fuel) :
    (run (fun p x : ℤ => decide (|p - x| ≤ 1)) (upTo B) fuel (init [a, b])).1 = [(a, upTo B a), (b, upTo B b)] ∧
    ∀ x ∈ upTo B a, x ∈ upTo B b := by
  constructor
  · obtain ⟨f, rfl⟩ : ∃ f, fuel = f + 2 := ⟨fuel - 2, by omega⟩
    rcases run_succ (fun p x : ℤ => decide (|p - x| ≤ 1)) (upTo B) (f + 1) (init [a, b]) (all_init _).2 with
      ⟨s0, h0, e, -, -⟩ | ⟨c, s', h0, hs', e1, e2, h1⟩
    · rw [(all_init _).1] at e; cases e
    · have hc : c = a := by simpa [init, rebuild, deleteAt] using h0.symm
      subst hc
      have hp : (init [c, b]).points = [b] := by simp [init, rebuild, deleteAt]
      have e2' : all s' = [b] := by
        rw [e2, hp]
        simp only [List.filter_cons, List.filter_nil]
        rw [if_pos]
        simp only [Bool.not_eq_true', List.any_eq_false, decide_eq_true_eq, not_le]
        intro x hx
        have := (mem_upTo B c x).1 hx
        rw [lt_abs]; left; omega
      rw [h1]
      dsimp only
      rcases run_succ (fun p x : ℤ => decide (|p - x| ≤ 1)) (upTo B) f s' hs' with
        ⟨s0, h0', e, -, -⟩ | ⟨c', s'', h0', hs'', e1', e2'', h1'⟩
      · rw [e2'] at e; cases e
      · rw [e2'] at e1'
        obtain ⟨rfl, hp'⟩ : b = c' ∧ [] = s'.points := by simpa using e1'
        rw [← hp'] at e2''
        rw [h1']
        dsimp only
        have : (run (fun p x : ℤ => decide (|p - x| ≤ 1)) (upTo B) f s'').1 = [] := by
          cases f with
          | zero => rfl
          | succ f =>
            rcases run_succ (fun p x : ℤ => decide (|p - x| ≤ 1)) (upTo B) f s'' hs'' with
              ⟨s0, _, _, h, rfl⟩ | ⟨c'', s3, _, _, e, _, _⟩
            · rw [h]
            · rw [e2''] at e; cases e
        rw [this]
  · intro x hx
    rw [mem_upTo] at hx ⊢
    omega

example : (run (fun p x : ℤ => decide (|p - x| ≤ 1)) (upTo 20) 5 (init [10, 12, 3, 2, 21, 30])).1.map Prod.fst = [10, 3, 30] := by
  decide +kernel

end Verif.March.Iter
