import Mathlib.Algebra.Order.Hom.Ring
import Verif.Gjk.Lemmas

set_option linter.unusedSectionVars false

/-! The search on scaled data. -/

namespace Verif.Gjk

variable {R : Type} [CommRing R] [LinearOrder R] [IsStrictOrderedRing R]
variable {K : Type} [CommRing K] [LinearOrder K] [IsStrictOrderedRing K]

/-- The vector `v` taken into `K` and multiplied by `s`. -/
def scaled (φ : R →+* K) (s : K) (v : V R) : V K := ⟨s * φ v.x, s * φ v.y, s * φ v.z⟩

theorem sub_scaled (φ : R →+* K) (s : K) (a b : V R) :
    sub (scaled φ s a) (scaled φ s b) = scaled φ s (sub a b) := by
  simp only [sub, scaled, map_sub, V.mk.injEq]
  refine ⟨?_, ?_, ?_⟩ <;> ring

theorem neg_scaled (φ : R →+* K) (s : K) (a : V R) : neg (scaled φ s a) = scaled φ s (neg a) := by
  simp only [neg, scaled, map_neg, V.mk.injEq]
  refine ⟨?_, ?_, ?_⟩ <;> ring

theorem cross_scaled (φ : R →+* K) (s t : K) (a b : V R) :
    cross (scaled φ s a) (scaled φ t b) = scaled φ (s * t) (cross a b) := by
  simp only [cross, scaled, map_sub, map_mul, V.mk.injEq]
  refine ⟨?_, ?_, ?_⟩ <;> ring

theorem dot_scaled (φ : R →+* K) (s t : K) (a b : V R) :
    dot (scaled φ s a) (scaled φ t b) = s * t * φ (dot a b) := by
  simp only [dot, scaled, map_add, map_mul]; ring

/-- The support index only depends on the order of the products. -/
theorem supportLoop_map (g : R → K) (hg : StrictMono g) (f : V R → V K) (d : V R) (d' : V K) :
    ∀ (vs : List (V R)) (i : Nat) (best : Option (R × Nat)),
      (∀ v ∈ vs, dot (f v) d' = g (dot v d)) →
      supportLoop d' (vs.map f) i (best.map (fun b => (g b.1, b.2)))
        = (supportLoop d vs i best).map (fun b => (g b.1, b.2))
  | [], _, _, _ => rfl
  | v :: vs, i, best, h => by
    rw [List.map_cons, supportLoop.eq_def, supportLoop.eq_def d]
    dsimp only
    rw [← supportLoop_map g hg f d d' vs (i + 1) _ (fun w hw => h w (List.mem_cons_of_mem _ hw)),
      h v List.mem_cons_self]
    congr 1
    rcases best with _ | ⟨a, k⟩
    · rfl
    · simp only [Option.map_some, hg.lt_iff_lt]
      split_ifs <;> rfl

theorem supportVector_map (g : R → K) (hg : StrictMono g) (f : V R → V K) (d : V R) (d' : V K)
    (vs : List (V R)) (h : ∀ v ∈ vs, dot (f v) d' = g (dot v d)) :
    supportVector (vs.map f) d' = supportVector vs d := by
  unfold supportVector
  have := supportLoop_map g hg f d d' vs 0 none h
  rw [Option.map_none] at this
  rw [this, Option.map_map]
  rfl

theorem support_scaled (φ : R →+* K) (hφ : StrictMono φ) {s r : K} (hs : 0 < s) (hr : 0 < r)
    (vs ws : List (V R)) (d : V R) :
    support (vs.map (scaled φ s)) (ws.map (scaled φ s)) (scaled φ r d)
      = (support vs ws d).map (fun b => (scaled φ s b.1, b.2)) := by
  have hg : StrictMono (fun x : R => s * r * φ x) := fun a b h =>
    mul_lt_mul_of_pos_left (hφ h) (mul_pos hs hr)
  unfold support
  rw [supportVector_map (fun x => s * r * φ x) hg (scaled φ s) d (scaled φ r d) vs
      (fun v _ => dot_scaled φ s r v d),
    neg_scaled, supportVector_map (fun x => s * r * φ x) hg (scaled φ s) (neg d)
      (scaled φ r (neg d)) ws (fun v _ => dot_scaled φ s r v (neg d))]
  rcases supportVector vs d with _ | i
  · rfl
  rcases supportVector ws (neg d) with _ | j
  · rfl
  simp only [Option.bind_eq_bind, Option.bind_some, List.getElem?_map, List.length_map]
  rcases vs[i]? with _ | p
  · rfl
  rcases ws[j]? with _ | q
  · rfl
  simp only [Option.map_some, Option.bind_some, Option.pure_def, sub_scaled]

/-- The tolerance separates the positive products from the others. -/
structure Fine (φ : R →+* K) (s tol : K) : Prop where
  nonneg : 0 ≤ tol
  two : ∀ x : R, 0 < x → tol < s * s * φ x
  three : ∀ x : R, 0 < x → tol < s * s * s * φ x
  four : ∀ x : R, 0 < x → tol < s * s * s * s * φ x

theorem test_iff {φ : R →+* K} (hφ : StrictMono φ) {tol c : K} (ht : 0 ≤ tol) (hc : 0 < c)
    (h : ∀ x : R, 0 < x → tol < c * φ x) (x : R) : tol < c * φ x ↔ 0 < x := by
  constructor
  · intro h1
    by_contra h2
    have h3 : φ x ≤ 0 := by
      have := hφ.monotone (not_lt.mp h2)
      rwa [map_zero] at this
    have := mul_nonpos_of_nonneg_of_nonpos hc.le h3
    linarith
  · exact h x

/-- A simplex and a direction over `K` that are a scaled copy of those over `R`. -/
def Copy (φ : R →+* K) (s : K) (a : List (V K) × V K) (b : List (V R) × V R) : Prop :=
  a.1 = b.1.map (scaled φ s) ∧ ∃ r : K, 0 < r ∧ a.2 = scaled φ r b.2

variable {φ : R →+* K} {s tol : K}

theorem handle2_copy (hφ : StrictMono φ) (hs : 0 < s) (hF : Fine φ s tol) (b a : V R) :
    Copy φ s (handle2 tol (scaled φ s b) (scaled φ s a)) (handle2 0 b a) := by
  unfold handle2
  dsimp only
  simp only [sub_scaled, neg_scaled, cross_scaled, dot_scaled]
  have e := test_iff hφ hF.nonneg (mul_pos hs hs) hF.two (dot (sub b a) (neg a))
  by_cases h : 0 < dot (sub b a) (neg a)
  · rw [if_pos h, if_pos (e.mpr h)]
    exact ⟨rfl, _, by positivity, rfl⟩
  · rw [if_neg h, if_neg (fun h' => h (e.mp h'))]
    exact ⟨rfl, _, hs, rfl⟩

theorem handle3_copy (hφ : StrictMono φ) (hs : 0 < s) (hF : Fine φ s tol) (c b a : V R) :
    Copy φ s (handle3 tol (scaled φ s c) (scaled φ s b) (scaled φ s a)) (handle3 0 c b a) := by
  unfold handle3
  dsimp only
  simp only [sub_scaled, neg_scaled, cross_scaled, dot_scaled]
  have e1 := test_iff hφ hF.nonneg (c := s * s * s * s) (by positivity) hF.four
    (dot (cross (cross (sub b a) (sub c a)) (sub c a)) (neg a))
  have e2 := test_iff hφ (le_refl 0) (c := s * s) (by positivity)
    (fun x hx => lt_of_le_of_lt hF.nonneg (hF.two x hx)) (dot (sub c a) (neg a))
  have e3 := test_iff hφ hF.nonneg (c := s * (s * s) * s) (by positivity)
    (fun x hx => by have := hF.four x hx; rwa [mul_assoc s s s] at this)
    (dot (cross (sub b a) (cross (sub b a) (sub c a))) (neg a))
  have e4 := test_iff hφ hF.nonneg (c := s * s * s) (by positivity) hF.three
    (dot (cross (sub b a) (sub c a)) (neg a))
  by_cases h1 : 0 < dot (cross (cross (sub b a) (sub c a)) (sub c a)) (neg a)
  · rw [if_pos h1, if_pos (e1.mpr h1)]
    by_cases h2 : 0 < dot (sub c a) (neg a)
    · rw [if_pos h2, if_pos (e2.mpr h2)]
      exact ⟨rfl, _, by positivity, rfl⟩
    · rw [if_neg h2, if_neg (fun h' => h2 (e2.mp h'))]
      exact handle2_copy hφ hs hF b a
  · rw [if_neg h1, if_neg (fun h' => h1 (e1.mp h'))]
    by_cases h3 : 0 < dot (cross (sub b a) (cross (sub b a) (sub c a))) (neg a)
    · rw [if_pos h3, if_pos (e3.mpr h3)]
      exact handle2_copy hφ hs hF b a
    · rw [if_neg h3, if_neg (fun h' => h3 (e3.mp h'))]
      by_cases h4 : 0 < dot (cross (sub b a) (sub c a)) (neg a)
      · rw [if_pos h4, if_pos (e4.mpr h4)]
        exact ⟨rfl, _, by positivity, rfl⟩
      · rw [if_neg h4, if_neg (fun h' => h4 (e4.mp h'))]
        exact ⟨rfl, _, by positivity, rfl⟩

/-- Both answers are `true`, or both are simplices that correspond. -/
def CopyO (φ : R →+* K) (s : K) : Option (List (V K) × V K) → Option (List (V R) × V R) → Prop
  | none, none => True
  | some a, some b => Copy φ s a b
  | _, _ => False

theorem handle4_copy (hφ : StrictMono φ) (hs : 0 < s) (hF : Fine φ s tol) (e c b a : V R) :
    CopyO φ s (handle4 tol (scaled φ s e) (scaled φ s c) (scaled φ s b) (scaled φ s a))
      (handle4 0 e c b a) := by
  unfold handle4
  dsimp only
  simp only [sub_scaled, neg_scaled, cross_scaled, dot_scaled]
  have q := fun x : R => test_iff hφ (le_refl 0) (c := s * s * s) (by positivity)
    (fun x hx => lt_of_le_of_lt hF.nonneg (hF.three x hx)) x
  simp only [q]
  split_ifs
  · exact handle3_copy hφ hs hF c b a
  · exact handle3_copy hφ hs hF e b a
  · exact handle3_copy hφ hs hF e c a
  · trivial

theorem handleSimplex_copy (hφ : StrictMono φ) (hs : 0 < s) (hF : Fine φ s tol)
    (l : List (V R)) (d : V R) {r : K} (hr : 0 < r) :
    CopyO φ s (handleSimplex tol (l.map (scaled φ s)) (scaled φ r d)) (handleSimplex 0 l d) := by
  rcases l with _ | ⟨x, _ | ⟨y, _ | ⟨z, _ | ⟨w, _ | ⟨u, l⟩⟩⟩⟩⟩
  · exact ⟨rfl, r, hr, rfl⟩
  · exact ⟨rfl, r, hr, rfl⟩
  · exact handle2_copy hφ hs hF x y
  · exact handle3_copy hφ hs hF x y z
  · exact handle4_copy hφ hs hF x y z w
  · exact ⟨rfl, r, hr, rfl⟩

theorem plainLoop_copy (hφ : StrictMono φ) (hs : 0 < s) (hF : Fine φ s tol) (vs ws : List (V R)) :
    ∀ (n : Nat) (l : List (V R)) (d : V R) (r : K), 0 < r →
      plainLoop (vs.map (scaled φ s)) (ws.map (scaled φ s)) tol n (l.map (scaled φ s))
        (scaled φ r d) = plainLoop vs ws 0 n l d
  | 0, _, _, _, _ => rfl
  | n + 1, l, d, r, hr => by
    rw [plainLoop.eq_def, plainLoop.eq_def vs]
    dsimp only
    rw [support_scaled φ hφ hs hr]
    rcases support vs ws d with _ | ⟨p, k⟩
    · rfl
    dsimp only [Option.map_some]
    rw [dot_scaled]
    have e : s * r * φ (dot p d) < 0 ↔ dot p d < 0 := by
      have h := test_iff hφ (le_refl 0) (mul_pos hs hr)
        (fun x hx => mul_pos (mul_pos hs hr) (by have := hφ hx; rwa [map_zero] at this))
        (-(dot p d))
      rw [map_neg, mul_neg] at h
      rw [← neg_pos, h, neg_pos]
    by_cases hd : dot p d < 0
    · rw [if_pos hd, if_pos (e.mpr hd)]
    · rw [if_neg hd, if_neg (fun h' => hd (e.mp h'))]
      have e2 : l.map (scaled φ s) ++ [scaled φ s p] = (l ++ [p]).map (scaled φ s) := by simp
      rw [e2]
      have h := handleSimplex_copy hφ hs hF (l ++ [p]) d hr
      rcases h1 : handleSimplex tol ((l ++ [p]).map (scaled φ s)) (scaled φ r d) with _ | ⟨l1, d1⟩
        <;> rcases h2 : handleSimplex 0 (l ++ [p]) d with _ | ⟨l2, d2⟩
      · rfl
      · rw [h1, h2] at h; exact h.elim
      · rw [h1, h2] at h; exact h.elim
      · rw [h1, h2] at h
        obtain ⟨ha, r', hr', hb⟩ := h
        dsimp only at ha hb ⊢
        rw [ha, hb]
        exact plainLoop_copy hφ hs hF vs ws n l2 d2 r' hr'

/-- The verdict on a scaled copy. -/
theorem verdict_copy (hφ : StrictMono φ) (hs : 0 < s) (hF : Fine φ s tol) (vs ws : List (V R))
    (m : Nat) : verdict (vs.map (scaled φ s)) (ws.map (scaled φ s)) tol m = verdict vs ws 0 m := by
  by_cases h1 : vs = []
  · subst h1; rfl
  by_cases h2 : ws = []
  · subst h2; simp [verdict]
  obtain ⟨p, k, e1, e2⟩ := verdict_eq vs ws 0 (le_refl _) m h1 h2
  obtain ⟨p', k', e3, e4⟩ := verdict_eq (vs.map (scaled φ s)) (ws.map (scaled φ s)) tol hF.nonneg m
    (by simpa using h1) (by simpa using h2)
  have e5 : (⟨1, 0, 0⟩ : V K) = scaled φ 1 ⟨1, 0, 0⟩ := by simp [scaled]
  rw [e5, support_scaled φ hφ hs one_pos, e1] at e3
  simp only [Option.map_some, Option.some.injEq, Prod.mk.injEq] at e3
  rw [e2, e4, ← e3.1, neg_scaled, List.length_map, List.length_map]
  have := plainLoop_copy hφ hs hF vs ws (if m = 0 then vs.length * ws.length else m) [p] (neg p) s hs
  rw [← this]
  rfl

end Verif.Gjk
