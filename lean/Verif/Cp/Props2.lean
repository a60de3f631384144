import Verif.Cp.Props

/-! # C225: `closest_point_on_curve_single` -/

set_option linter.unusedSectionVars false

namespace Verif.Cp

variable {K : Type} [Field K] [LinearOrder K] [IsStrictOrderedRing K]

/-- What the loop keeps: the value belongs to the parameter and does not increase. -/
theorem curveLoop_spec {f : K → K} {tol : K} {fuel : ℕ} (l : List (K × K)) (hl : ∀ p ∈ l, p.1 ≤ p.2) :
    ∀ best r : K × K, curveLoop f tol fuel l best = some r → best.2 = f best.1 →
      r.2 = f r.1 ∧ r.2 ≤ best.2 ∧ (r = best ∨ ∃ p ∈ l, p.1 ≤ r.1 ∧ r.1 ≤ p.2) ∧
      ∀ p ∈ l, ∃ s, DnC.minIter f tol fuel p.1 p.2 = some s ∧ r.2 ≤ s.2 := by
  induction l with
  | nil =>
    intro best r h hb
    simp only [curveLoop, Option.some.injEq] at h
    subst h
    exact ⟨hb, le_rfl, Or.inl rfl, by simp⟩
  | cons p l ih =>
    intro best r h hb
    obtain ⟨a, b⟩ := p
    have hab : a ≤ b := hl (a, b) List.mem_cons_self
    unfold curveLoop at h
    cases hm : DnC.minIter f tol fuel a b with
    | none => rw [hm] at h; simp at h
    | some s =>
      obtain ⟨t, d⟩ := s
      rw [hm] at h
      dsimp only at h
      have hs := DnC.C31_any f a b tol hab fuel (t, d) (by rw [← DnC.C31_versions_agree f a b tol hab fuel]; exact hm)
      dsimp only at hs
      have hn : (if d < best.2 then (t, d) else best).2 = f (if d < best.2 then (t, d) else best).1 := by
        split_ifs
        · exact hs.2.2
        · exact hb
      have hle : (if d < best.2 then (t, d) else best).2 ≤ best.2 ∧ (if d < best.2 then (t, d) else best).2 ≤ d := by
        split_ifs with hc
        · exact ⟨hc.le, le_rfl⟩
        · exact ⟨le_rfl, not_lt.1 hc⟩
      obtain ⟨i1, i2, i3, i4⟩ := ih (fun p hp => hl p (List.mem_cons_of_mem _ hp)) _ r h hn
      refine ⟨i1, i2.trans hle.1, ?_, ?_⟩
      · rcases i3 with i3 | ⟨p, hp, i3⟩
        · by_cases hc : d < best.2
          · rw [if_pos hc] at i3
            subst i3
            exact Or.inr ⟨(a, b), List.mem_cons_self, hs.1, hs.2.1⟩
          · rw [if_neg hc] at i3
            exact Or.inl i3
        · exact Or.inr ⟨p, List.mem_cons_of_mem _ hp, i3⟩
      · intro q hq
        rcases List.mem_cons.1 hq with rfl | hq
        · exact ⟨(t, d), hm, i2.trans hle.2⟩
        · exact i4 q hq

/-- More fuel gives the same result. -/
theorem minIter_mono {f : K → K} {tol : K} (k : ℕ) : ∀ {a b : K} {r : K × K}, DnC.minIter f tol k a b = some r →
    ∀ n, k ≤ n → DnC.minIter f tol n a b = some r := by
  induction k with
  | zero => intro a b r h; simp [DnC.minIter] at h
  | succ k ih =>
    intro a b r h n hn
    obtain ⟨n, rfl⟩ : ∃ m, n = m + 1 := ⟨n - 1, by omega⟩
    rw [DnC.minIter] at h ⊢
    by_cases h1 : |b - a| ≥ tol
    · rw [if_pos h1] at h ⊢
      dsimp only at h ⊢
      by_cases h2 : f (a + (b - a) / 4) < f (b - (b - a) / 4)
      · rw [if_pos h2] at h ⊢
        exact ih h n (by omega)
      · rw [if_neg h2] at h ⊢
        exact ih h n (by omega)
    · rw [if_neg h1] at h ⊢
      exact h

/-- With a positive tolerance every search ends. -/
theorem minIter_ends [Archimedean K] (f : K → K) {tol : K} (ht : 0 < tol) {a b : K} (hab : a ≤ b) :
    ∃ k r, DnC.minIter f tol k a b = some r := by
  obtain ⟨k, hk⟩ := DnC.enough (b - a) ht (3 / 4) (by norm_num) (by norm_num)
  obtain ⟨r, hr⟩ := DnC.minRec_some f k hk
  exact ⟨k + 1, r, by rw [DnC.C31_versions_agree f a b tol hab]; exact hr⟩

theorem curveLoop_ends [Archimedean K] (f : K → K) {tol : K} (ht : 0 < tol) (l : List (K × K))
    (hl : ∀ p ∈ l, p.1 ≤ p.2) : ∃ N, ∀ n, N ≤ n → ∀ best, ∃ r, curveLoop f tol n l best = some r := by
  induction l with
  | nil => exact ⟨0, fun n _ best => ⟨best, rfl⟩⟩
  | cons p l ih =>
    obtain ⟨a, b⟩ := p
    obtain ⟨N, hN⟩ := ih (fun p hp => hl p (List.mem_cons_of_mem _ hp))
    obtain ⟨k, r, hr⟩ := minIter_ends f ht (hl (a, b) List.mem_cons_self)
    refine ⟨max N k, fun n hn best => ?_⟩
    unfold curveLoop
    rw [minIter_mono k hr n (le_trans (le_max_right _ _) hn)]
    exact hN n (le_trans (le_max_left _ _) hn) _

section
variable [FloorRing K]

theorem divide_le (a b : K) : ∀ p ∈ divideInterval a b (1 / 2), p.1 ≤ p.2 := by
  intro p hp
  obtain ⟨i, -, rfl⟩ := List.mem_map.1 hp
  dsimp only
  linarith

/-- The pieces of `divide_interval`: they start in the interval, and every point of the interval is in one. -/
theorem divide_range (a b : K) : ∀ p ∈ divideInterval a b (1 / 2), a ≤ p.1 ∧ p.1 < b ∧ p.2 = p.1 + 1 / 2 := by
  intro p hp
  obtain ⟨i, hi, rfl⟩ := List.mem_map.1 hp
  rw [List.mem_range] at hi
  dsimp only
  have h1 : (i : ℤ) < ⌈(b - a) / (1 / 2)⌉ := by omega
  have h2 : ((i : ℤ) : K) < (b - a) / (1 / 2) := Int.lt_ceil.1 h1
  rw [Int.cast_natCast] at h2
  have h3 : (0 : K) ≤ i := Nat.cast_nonneg i
  refine ⟨by linarith, ?_, rfl⟩
  have h4 : (b - a) / (1 / 2) = 2 * (b - a) := by field_simp
  rw [h4] at h2
  linarith

theorem divide_cover (a b t : K) (h1 : a ≤ t) (h2 : t < b) : ∃ p ∈ divideInterval a b (1 / 2), p.1 ≤ t ∧ t ≤ p.2 := by
  have h4 : ∀ x : K, x / (1 / 2) = 2 * x := fun x => by field_simp
  have hf0 : 0 ≤ ⌊2 * (t - a)⌋ := Int.floor_nonneg.2 (by linarith)
  have hf1 := Int.floor_le (2 * (t - a))
  have hf2 := (Int.lt_floor_add_one (2 * (t - a))).le
  obtain ⟨n, hn⟩ : ∃ n : ℕ, ⌊2 * (t - a)⌋ = n := ⟨_, (Int.toNat_of_nonneg hf0).symm⟩
  rw [hn, Int.cast_natCast] at hf1 hf2
  refine ⟨_, List.mem_map.2 ⟨n, ?_, rfl⟩, ?_, ?_⟩
  · rw [List.mem_range, h4]
    have : (n : ℤ) < ⌈2 * (b - a)⌉ := by
      rw [Int.lt_ceil, Int.cast_natCast]; linarith
    omega
  · dsimp only; linarith
  · dsimp only; linarith

/-- **C225.**  With a positive tolerance the search ends.  The distance returned is the distance at the parameter
returned; it is not greater than the distance at either end of the curve; and the parameter is at most half a unit past
the end. -/
theorem C225_result_partial (f : K → K) (t0 t1 tol : K) (h01 : t0 ≤ t1) (ht : 0 < tol) :
    (∃ N, ∀ n, N ≤ n → ∃ r, closestOnCurve f t0 t1 tol n = some r) ∧
    ∀ n r, closestOnCurve f t0 t1 tol n = some r →
      r.2 = f r.1 ∧ r.2 ≤ f t0 ∧ r.2 ≤ f t1 ∧ t0 ≤ r.1 ∧ r.1 < t1 + 1 / 2 := by
  constructor
  · obtain ⟨N, hN⟩ := curveLoop_ends f ht _ (divide_le t0 t1)
    exact ⟨N, fun n hn => hN n hn _⟩
  · intro n r h
    unfold closestOnCurve at h
    dsimp only at h
    have hb : (if f t1 < f t0 then (t1, f t1) else (t0, f t0)).2 = f (if f t1 < f t0 then (t1, f t1) else (t0, f t0)).1 := by
      split_ifs <;> rfl
    obtain ⟨h1, h2, h3, -⟩ := curveLoop_spec _ (divide_le t0 t1) _ r h hb
    refine ⟨h1, h2.trans ?_, h2.trans ?_, ?_⟩
    · split_ifs with hc
      · exact hc.le
      · exact le_rfl
    · split_ifs with hc
      · exact le_rfl
      · exact not_lt.1 hc
    · rcases h3 with rfl | ⟨p, hp, h4, h5⟩
      · split_ifs
        · exact ⟨h01, by dsimp only; linarith⟩
        · exact ⟨le_rfl, by dsimp only; linarith⟩
      · obtain ⟨g1, g2, g3⟩ := divide_range t0 t1 p hp
        exact ⟨g1.trans h4, by linarith⟩

/-- When the length of the interval is a multiple of one half, the parameter is in the interval. -/
theorem C225_interval_partial (f : K → K) (t0 tol : K) (m n : ℕ) (ht : 0 < tol) (r : K × K)
    (h : closestOnCurve f t0 (t0 + m / 2) tol n = some r) : t0 ≤ r.1 ∧ r.1 ≤ t0 + m / 2 := by
  have hm : (0 : K) ≤ m := Nat.cast_nonneg m
  have h01 : t0 ≤ t0 + m / 2 := by linarith
  refine ⟨((C225_result_partial f t0 _ tol h01 ht).2 n r h).2.2.2.1, ?_⟩
  unfold closestOnCurve at h
  dsimp only at h
  have hb : (if f (t0 + m / 2) < f t0 then (t0 + m / 2, f (t0 + m / 2)) else (t0, f t0)).2 =
      f (if f (t0 + m / 2) < f t0 then (t0 + m / 2, f (t0 + m / 2)) else (t0, f t0)).1 := by split_ifs <;> rfl
  obtain ⟨-, -, h3, -⟩ := curveLoop_spec _ (divide_le t0 (t0 + m / 2)) _ r h hb
  rcases h3 with rfl | ⟨p, hp, h4, h5⟩
  · split_ifs
    · exact le_rfl
    · exact h01
  · obtain ⟨i, hi, rfl⟩ := List.mem_map.1 hp
    have e : (t0 + m / 2 - t0) / (1 / 2) = ((m : ℤ) : K) := by rw [Int.cast_natCast]; field_simp; ring
    rw [List.mem_range, e, Int.ceil_intCast, Int.toNat_natCast] at hi
    dsimp only at h5
    have : ((i : K) + 1) ≤ m := by exact_mod_cast hi
    linarith

/-- **C225.**  If on every piece of length one half the distance first decreases and then increases, and it changes by at
most `L` times the change of the parameter, the distance returned exceeds the distance of no point of the curve by more
than `L * tol / 2`. -/
theorem C225_minimum_partial (f : K → K) (t0 t1 tol L : K) (ht : 0 < tol) (hL : 0 ≤ L)
    (hu : ∀ p ∈ divideInterval t0 t1 (1 / 2), ∃ xs, DnC.Unimodal f p.1 p.2 xs)
    (hlip : ∀ x y, t0 ≤ x → x ≤ t1 + 1 / 2 → t0 ≤ y → y ≤ t1 + 1 / 2 → |f x - f y| ≤ L * |x - y|)
    (n : ℕ) (r : K × K) (h : closestOnCurve f t0 t1 tol n = some r) (t : K) (h1 : t0 ≤ t) (h2 : t ≤ t1) :
    r.2 ≤ f t + L * tol / 2 := by
  have hpos : 0 ≤ L * tol / 2 := by positivity
  rcases h2.lt_or_eq with h2 | rfl
  · obtain ⟨p, hp, hp1, hp2⟩ := divide_cover t0 t1 t h1 h2
    obtain ⟨xs, hxs⟩ := hu p hp
    obtain ⟨g1, g2, g3⟩ := divide_range t0 t1 p hp
    unfold closestOnCurve at h
    dsimp only at h
    have hb : (if f t1 < f t0 then (t1, f t1) else (t0, f t0)).2 = f (if f t1 < f t0 then (t1, f t1) else (t0, f t0)).1 := by
      split_ifs <;> rfl
    obtain ⟨-, -, -, h5⟩ := curveLoop_spec _ (divide_le t0 t1) _ r h hb
    obtain ⟨s, hs, hle⟩ := h5 p hp
    obtain ⟨a1, a2, a3, a4⟩ := (DnC.C31_iterative f p.1 p.2 xs tol hxs ht).2 n s hs
    have hmin : f xs ≤ f t := by
      rcases lt_trichotomy t xs with hlt | rfl | hlt
      · exact (hxs.dec t xs hp1 hlt le_rfl).le
      · exact le_rfl
      · exact (hxs.inc xs t le_rfl hlt hp2).le
    have hl := hlip s.1 xs (g1.trans a1) (by linarith) (g1.trans hxs.left) (by linarith [hxs.right])
    have h6 := le_abs_self (f s.1 - f xs)
    have h7 : L * |s.1 - xs| ≤ L * (tol / 2) := mul_le_mul_of_nonneg_left a4.le hL
    have h8 : L * (tol / 2) = L * tol / 2 := by ring
    rw [a3] at hle
    linarith
  · have := ((C225_result_partial f t0 t tol h1 ht).2 n r h).2.2.1
    linarith

/-- **C225 fails**: for every interval whose length is not a multiple of one half there is a point such that the parameter
returned is outside the interval, with a distance smaller than that of every point of the curve.  The curve is the segment
`t ↦ t`, and the point is the end `b` of the last piece. -/
theorem C225_interval_refuted (t0 t1 tol : K) (h01 : t0 < t1) (hm : ∀ m : ℕ, t1 ≠ t0 + m / 2) (ht : 0 < tol) :
    ∃ b, t1 < b ∧ (tol ≤ b - t1 → ∀ n r, closestOnCurve (fun t => |b - t|) t0 t1 tol n = some r →
      t1 < r.1 ∧ ∀ t, t0 ≤ t → t ≤ t1 → r.2 < |b - t|) := by
  have hpos : 0 < ⌈2 * (t1 - t0)⌉ := Int.ceil_pos.2 (by linarith)
  obtain ⟨k, hk⟩ : ∃ k : ℕ, ⌈2 * (t1 - t0)⌉ = (k : ℤ) + 1 := ⟨(⌈2 * (t1 - t0)⌉ - 1).toNat, by omega⟩
  have hc := Int.le_ceil (2 * (t1 - t0))
  rw [hk] at hc
  push_cast at hc
  have hb : t1 < t0 + k * (1 / 2) + 1 / 2 := by
    have h1 := hm (k + 1)
    push_cast at h1
    have h2 : t1 ≤ t0 + k * (1 / 2) + 1 / 2 := by linarith
    rcases h2.lt_or_eq with h | h
    · exact h
    · exfalso; apply h1; rw [h]; ring
  refine ⟨_, hb, ?_⟩
  intro htol n r h
  set b := t0 + k * (1 / 2) + 1 / 2 with hbdef
  have hp : (t0 + k * (1 / 2), b) ∈ divideInterval t0 t1 (1 / 2) := by
    refine List.mem_map.2 ⟨k, ?_, rfl⟩
    have e : (t1 - t0) / (1 / 2) = 2 * (t1 - t0) := by field_simp
    rw [List.mem_range, e, hk]
    omega
  have hu : DnC.Unimodal (fun t => |b - t|) (t0 + k * (1 / 2)) b b := by
    refine ⟨by linarith, le_rfl, ?_, ?_⟩
    · intro x y _ h1 h2
      rw [abs_of_nonneg (by linarith), abs_of_nonneg (by linarith)]
      linarith
    · intro x y h1 h2 h3
      linarith
  have hres := (C225_result_partial _ t0 t1 tol h01.le ht).2 n r h
  unfold closestOnCurve at h
  dsimp only at h
  have hbe : (if |b - t1| < |b - t0| then (t1, |b - t1|) else (t0, |b - t0|)).2 =
      (fun t => |b - t|) (if |b - t1| < |b - t0| then (t1, |b - t1|) else (t0, |b - t0|)).1 := by
    split_ifs <;> rfl
  obtain ⟨h1, -, -, h5⟩ := curveLoop_spec _ (divide_le t0 t1) _ r h hbe
  obtain ⟨s, hs, hle⟩ := h5 _ hp
  obtain ⟨a1, a2, a3, a4⟩ := (DnC.C31_iterative _ _ _ b tol hu ht).2 n s hs
  have h6 : r.2 < b - t1 := by
    rw [a3, abs_sub_comm] at hle
    linarith
  refine ⟨?_, fun t _ h2 => ?_⟩
  · rw [h1] at h6
    have := le_abs_self (b - r.1)
    linarith
  · exact lt_of_lt_of_le h6 ((by linarith : b - t1 ≤ b - t).trans (le_abs_self _))

end

/-- The interval `[0, 3/4]` and the point `1`: the parameter is about `1`. -/
example : (∀ m : ℕ, (3 / 4 : ℚ) ≠ 0 + m / 2) ∧
    (closestOnCurve (fun t : ℚ => |1 - t|) 0 (3 / 4) (1 / 10) 20).map (fun r => decide (9 / 10 < r.1)) = some true := by
  refine ⟨fun m h => ?_, by decide +kernel⟩
  have h2 : (3 : ℚ) = 2 * m := by linarith
  have h3 : (3 : ℕ) = 2 * m := by exact_mod_cast h2
  omega

/-- **C225 fails** also for a nearest point in the interval: one piece has two local minima, and the search keeps the wrong
one: the value returned is above 1/4 although the curve passes through the point at `t = 1/16`. -/
theorem C225_minimum_refuted :
    ∃ (f : ℚ → ℚ), (∀ t, 0 ≤ f t) ∧ (∀ x y, |f x - f y| ≤ 8 * |x - y|) ∧ f (1 / 16) = 0 ∧
      ∃ r, closestOnCurve f 0 (1 / 2) (1 / 1000) 30 = some r ∧ 1 / 4 ≤ r.2 := by
  refine ⟨fun t => min (8 * |t - 1 / 16|) (|t - 3 / 8| + 1 / 4), ?_, ?_, ?_, ?_⟩
  · intro t; positivity
  · intro x y
    refine (abs_min_sub_min_le_max _ _ _ _).trans (max_le ?_ ?_)
    · rw [← mul_sub, abs_mul, abs_of_pos (by norm_num : (0 : ℚ) < 8)]
      have := abs_abs_sub_abs_le (x - 1 / 16) (y - 1 / 16)
      rw [show x - 1 / 16 - (y - 1 / 16) = x - y by ring] at this
      linarith
    · have := abs_abs_sub_abs_le (x - 3 / 8) (y - 3 / 8)
      rw [show x - 3 / 8 - (y - 3 / 8) = x - y by ring] at this
      rw [show |x - 3 / 8| + 1 / 4 - (|y - 3 / 8| + 1 / 4) = |x - 3 / 8| - |y - 3 / 8| by ring]
      have h0 := abs_nonneg (x - y)
      linarith
  · norm_num
  · have h : ((closestOnCurve (fun t : ℚ => min (8 * |t - 1 / 16|) (|t - 3 / 8| + 1 / 4)) 0 (1 / 2) (1 / 1000) 30).map
        fun r => decide (1 / 4 ≤ r.2)) = some true := by decide +kernel
    obtain ⟨r, h1, h2⟩ := Option.map_eq_some_iff.1 h
    exact ⟨r, h1, of_decide_eq_true h2⟩

/-- The hypotheses of `C225_minimum_partial` on the segment `t ↦ t` over `[0, 1]` and the point `3/10`, and the result. -/
example : (∀ p ∈ divideInterval (0 : ℚ) 1 (1 / 2), ∃ xs, DnC.Unimodal (fun t : ℚ => |3 / 10 - t|) p.1 p.2 xs) ∧
    (∀ x y : ℚ, |(|3 / 10 - x| - |3 / 10 - y|)| ≤ 1 * |x - y|) ∧
    (closestOnCurve (fun t : ℚ => |3 / 10 - t|) 0 1 (1 / 100) 20).map (fun r => decide (r.2 ≤ 1 / 200)) = some true := by
  refine ⟨?_, ?_, by decide +kernel⟩
  · have : divideInterval (0 : ℚ) 1 (1 / 2) = [(0, 1 / 2), (1 / 2, 1)] := by decide +kernel
    rw [this]
    intro p hp
    simp only [List.mem_cons, List.not_mem_nil, or_false] at hp
    rcases hp with rfl | rfl
    · refine ⟨3 / 10, by norm_num, by norm_num, ?_, ?_⟩
      · intro x y h1 h2 h3
        rw [abs_of_nonneg (by linarith), abs_of_nonneg (by linarith)]; linarith
      · intro x y h1 h2 h3
        rw [abs_of_nonpos (by linarith), abs_of_nonpos (by linarith)]; linarith
    · refine ⟨1 / 2, by norm_num, by norm_num, ?_, ?_⟩
      · intro x y h1 h2 h3
        dsimp only at h1
        linarith
      · intro x y h1 h2 h3
        rw [abs_of_nonpos (by linarith), abs_of_nonpos (by linarith)]; linarith
  · intro x y
    have := abs_abs_sub_abs_le (3 / 10 - x) (3 / 10 - y)
    rw [show 3 / 10 - x - (3 / 10 - y) = y - x by ring, abs_sub_comm y x] at this
    linarith

end Verif.Cp
