import Verif.Mnm.Model
import Verif.Cbb.Props2
import Verif.DnC.Props2
import Mathlib.Tactic.Positivity

/-! # C418, C419: the search for a minimum in space and for all minima in the plane -/

set_option linter.unusedSectionVars false

namespace Verif.Mnm

variable {K : Type} [Field K] [LinearOrder K] [IsStrictOrderedRing K]

/-- `b` is a box inside `r`. -/
def Within3 (r b : Box3 K) : Prop :=
  (r.x0 ≤ b.x0 ∧ b.x0 ≤ b.x1 ∧ b.x1 ≤ r.x1) ∧ (r.y0 ≤ b.y0 ∧ b.y0 ≤ b.y1 ∧ b.y1 ≤ r.y1) ∧
    (r.z0 ≤ b.z0 ∧ b.z0 ≤ b.z1 ∧ b.z1 ≤ r.z1)

/-- The point lies in the box. -/
def In3 (p : P3 K) (b : Box3 K) : Prop :=
  (b.x0 ≤ p.1 ∧ p.1 ≤ b.x1) ∧ (b.y0 ≤ p.2.1 ∧ p.2.1 ≤ b.y1) ∧ (b.z0 ≤ p.2.2 ∧ p.2.2 ≤ b.z1)

theorem argmin_mem {α : Type} (g : α → K) (l : List α) : ∀ a, DnC.argmin g a l = a ∨ DnC.argmin g a l ∈ l := by
  induction l with
  | nil => intro a; left; rfl
  | cons x l ih =>
    intro a
    rw [DnC.argmin]
    split_ifs
    · rcases ih x with h | h
      · right; rw [h]; exact List.mem_cons_self
      · right; exact List.mem_cons_of_mem _ h
    · rcases ih a with h | h
      · left; exact h
      · right; exact List.mem_cons_of_mem _ h

theorem side_spec {r0 r1 u0 u1 c : K} (h0 : r0 ≤ u0) (h1 : u0 ≤ u1) (h2 : u1 ≤ r1) (c0 : u0 ≤ c) (c1 : c ≤ u1) :
    (r0 ≤ (side r0 r1 u0 u1 c).1 ∧ (side r0 r1 u0 u1 c).1 ≤ (side r0 r1 u0 u1 c).2 ∧ (side r0 r1 u0 u1 c).2 ≤ r1) ∧
    ((side r0 r1 u0 u1 c).1 ≤ c ∧ c ≤ (side r0 r1 u0 u1 c).2) ∧
    (side r0 r1 u0 u1 c).2 - (side r0 r1 u0 u1 c).1 ≤ (u1 - u0) * (1 / 2) ∧ (side r0 r1 u0 u1 c).2 ≤ c + (u1 - u0) / 4 := by
  have a1 : max (c - (u1 - u0) / 4) r0 ≤ c := max_le (by linarith) (by linarith)
  have a2 : c ≤ min (c + (u1 - u0) / 4) r1 := le_min (by linarith) (by linarith)
  have a3 := le_max_left (c - (u1 - u0) / 4) r0
  have a4 := min_le_left (c + (u1 - u0) / 4) r1
  exact ⟨⟨le_max_right _ _, a1.trans a2, min_le_right _ _⟩, ⟨a1, a2⟩, by unfold side; dsimp only; linarith, a4⟩

theorem cand_in {r b : Box3 K} (hb : Within3 r b) (f : P3 K → K) :
    In3 (DnC.argmin f (b.x0, b.y0, b.z0) (cands3 b)) b := by
  obtain ⟨⟨_, hx, _⟩, ⟨_, hy, _⟩, ⟨_, hz, _⟩⟩ := hb
  have mid : ∀ {u v : K}, u ≤ v → u ≤ (u + v) / 2 ∧ (u + v) / 2 ≤ v := fun h => ⟨by linarith, by linarith⟩
  have mx := mid hx
  have my := mid hy
  have mz := mid hz
  have hall : ∀ p ∈ (b.x0, b.y0, b.z0) :: cands3 b, In3 p b := by
    intro p hp
    simp only [cands3, List.mem_cons, List.not_mem_nil, or_false] at hp
    rcases hp with rfl | rfl | rfl | rfl | rfl | rfl | rfl | rfl | rfl | rfl | rfl | rfl | rfl | rfl | rfl | rfl | rfl | rfl | rfl <;>
      refine ⟨⟨?_, ?_⟩, ⟨?_, ?_⟩, ⟨?_, ?_⟩⟩ <;> dsimp only <;> linarith [mx.1, mx.2, my.1, my.2, mz.1, mz.2]
  rcases argmin_mem f (cands3 b) (b.x0, b.y0, b.z0) with h | h
  · rw [h]; exact hall _ List.mem_cons_self
  · exact hall _ (List.mem_cons_of_mem _ h)

theorem step3_spec {r b : Box3 K} (hb : Within3 r b) (f : P3 K → K) :
    Within3 r (step3 f r b) ∧ (step3 f r b).x1 - (step3 f r b).x0 ≤ (b.x1 - b.x0) * (1 / 2) ∧
    (step3 f r b).y1 - (step3 f r b).y0 ≤ (b.y1 - b.y0) * (1 / 2) ∧
    (step3 f r b).z1 - (step3 f r b).z0 ≤ (b.z1 - b.z0) * (1 / 2) ∧
    (step3 f r b).x1 ≤ b.x1 + (b.x1 - b.x0) / 4 ∧
    In3 (DnC.argmin f (b.x0, b.y0, b.z0) (cands3 b)) (step3 f r b) := by
  obtain ⟨cx, cy, cz⟩ := cand_in hb f
  obtain ⟨⟨x1, x2, x3⟩, ⟨y1, y2, y3⟩, ⟨z1, z2, z3⟩⟩ := hb
  obtain ⟨p1, p2, p3, p4⟩ := side_spec x1 x2 x3 cx.1 cx.2
  obtain ⟨q1, q2, q3, q4⟩ := side_spec y1 y2 y3 cy.1 cy.2
  obtain ⟨s1, s2, s3, s4⟩ := side_spec z1 z2 z3 cz.1 cz.2
  exact ⟨⟨p1, q1, s1⟩, p3, q3, s3, p4.trans (by linarith [cx.2]), ⟨p2, q2, s2⟩⟩

theorem loop3_some (f : P3 K → K) (tol : K) (r : Box3 K) (k : Nat) : ∀ (b : Box3 K), Within3 r b →
    (b.x1 - b.x0) * (1 / 2) ^ k < tol → (b.y1 - b.y0) * (1 / 2) ^ k < tol → (b.z1 - b.z0) * (1 / 2) ^ k < tol →
    ∃ b', loop3 f tol r (k + 1) b = some b' := by
  induction k with
  | zero =>
    intro b _ h1 h2 h3
    rw [pow_zero, mul_one] at h1 h2 h3
    exact ⟨b, by rw [loop3, if_neg]; push Not; exact ⟨h1.le, h2.le, h3.le⟩⟩
  | succ k ih =>
    intro b hb h1 h2 h3
    rw [loop3]
    split_ifs with c
    · obtain ⟨s1, s2, s3, s4, _⟩ := step3_spec hb f
      have hp : (0 : K) ≤ (1 / 2) ^ k := by positivity
      rw [pow_succ'] at h1 h2 h3
      refine ih _ s1 ?_ ?_ ?_
      · have := mul_le_mul_of_nonneg_right s2 hp; linarith
      · have := mul_le_mul_of_nonneg_right s3 hp; linarith
      · have := mul_le_mul_of_nonneg_right s4 hp; linarith
    · exact ⟨b, rfl⟩

theorem loop3_inv (f : P3 K → K) (tol : K) (r : Box3 K) (k : Nat) : ∀ {b b' : Box3 K}, Within3 r b →
    loop3 f tol r k b = some b' → Within3 r b' ∧ b'.x1 - b'.x0 ≤ tol ∧ b'.y1 - b'.y0 ≤ tol ∧ b'.z1 - b'.z0 ≤ tol ∧
      b'.x1 ≤ b.x1 + (b.x1 - b.x0) / 2 := by
  induction k with
  | zero => intro b b' _ h; simp [loop3] at h
  | succ k ih =>
    intro b b' hb h
    rw [loop3] at h
    split_ifs at h with c
    · obtain ⟨s1, s2, s3, s4, s5, _⟩ := step3_spec hb f
      obtain ⟨i1, i2, i3, i4, i5⟩ := ih s1 h
      exact ⟨i1, i2, i3, i4, by linarith⟩
    · cases h
      push Not at c
      exact ⟨hb, c.1, c.2.1, c.2.2, by linarith [hb.1.2.1]⟩

/-- For every function, range and positive tolerance the search ends, with a point of the range.
`_partial`: it need not be near a minimum, see below. -/
theorem C418_search_partial [Archimedean K] (f : P3 K → K) (tol : K) (r : Box3 K) (hr : Within3 r r) (ht : 0 < tol) :
    (∃ N, ∀ k ≥ N, ∃ p, min3d f tol r k = some p) ∧ ∀ k p, min3d f tol r k = some p → In3 p r := by
  constructor
  · obtain ⟨k1, e1⟩ := DnC.enough (r.x1 - r.x0) ht (1 / 2) (by norm_num) (by norm_num)
    obtain ⟨k2, e2⟩ := DnC.enough (r.y1 - r.y0) ht (1 / 2) (by norm_num) (by norm_num)
    obtain ⟨k3, e3⟩ := DnC.enough (r.z1 - r.z0) ht (1 / 2) (by norm_num) (by norm_num)
    have mono : ∀ (w : K) (i j : Nat), 0 ≤ w → i ≤ j → w * (1 / 2) ^ j ≤ w * (1 / 2) ^ i := by
      intro w i j hw hij
      exact mul_le_mul_of_nonneg_left (pow_le_pow_of_le_one (by norm_num) (by norm_num) hij) hw
    refine ⟨k1 + k2 + k3 + 1, fun k hk => ?_⟩
    obtain ⟨m, rfl⟩ : ∃ m, k = m + 1 := ⟨k - 1, by omega⟩
    obtain ⟨b, hb⟩ := loop3_some f tol r m r hr
      (lt_of_le_of_lt (mono _ k1 m (by linarith [hr.1.2.1]) (by omega)) e1)
      (lt_of_le_of_lt (mono _ k2 m (by linarith [hr.2.1.2.1]) (by omega)) e2)
      (lt_of_le_of_lt (mono _ k3 m (by linarith [hr.2.2.2.1]) (by omega)) e3)
    exact ⟨_, by rw [min3d, hb]; rfl⟩
  · intro k p h
    rw [min3d, Option.map_eq_some_iff] at h
    obtain ⟨b, hb, rfl⟩ := h
    obtain ⟨⟨⟨x1, x2, x3⟩, ⟨y1, y2, y3⟩, ⟨z1, z2, z3⟩⟩, _⟩ := loop3_inv f tol r k hr hb
    exact ⟨⟨by dsimp only; linarith, by dsimp only; linarith⟩, ⟨by dsimp only; linarith, by dsimp only; linarith⟩,
      ⟨by dsimp only; linarith, by dsimp only; linarith⟩⟩

/-- The box of the next round contains a point that is as good as the eight corners of this box, its middle, the middles of its lower
and upper face, of the four edges of its lower face and of its four upright edges. -/
theorem C418_keeps_best (f : P3 K → K) (r b : Box3 K) (hb : Within3 r b) :
    ∃ c, In3 c (step3 f r b) ∧ (∀ x y z, (x = b.x0 ∨ x = b.x1) → (y = b.y0 ∨ y = b.y1) → (z = b.z0 ∨ z = b.z1) → f c ≤ f (x, y, z)) ∧
      (∀ z, (z = b.z0 ∨ z = b.z1 ∨ z = (b.z0 + b.z1) / 2) → f c ≤ f ((b.x0 + b.x1) / 2, (b.y0 + b.y1) / 2, z)) ∧
      (∀ y, (y = b.y0 ∨ y = b.y1) → f c ≤ f ((b.x0 + b.x1) / 2, y, b.z0)) ∧
      (∀ x, (x = b.x0 ∨ x = b.x1) → f c ≤ f (x, (b.y0 + b.y1) / 2, b.z0)) ∧
      ∀ x y, (x = b.x0 ∨ x = b.x1) → (y = b.y0 ∨ y = b.y1) → f c ≤ f (x, y, (b.z0 + b.z1) / 2) := by
  obtain ⟨h0, h⟩ := DnC.argmin_le f (cands3 b) (b.x0, b.y0, b.z0)
  refine ⟨_, (step3_spec hb f).2.2.2.2.2, ?_, ?_, ?_, ?_, ?_⟩
  · rintro x y z (rfl | rfl) (rfl | rfl) (rfl | rfl) <;> first | exact h0 | exact h _ (by simp [cands3])
  · rintro z (rfl | rfl | rfl) <;> exact h _ (by simp [cands3])
  · rintro y (rfl | rfl) <;> exact h _ (by simp [cands3])
  · rintro x (rfl | rfl) <;> exact h _ (by simp [cands3])
  · rintro x y (rfl | rfl) (rfl | rfl) <;> exact h _ (by simp [cands3])

/-- The distance (sum of the coordinates' distances) to the middle of an edge of the unit cube. -/
def edgeDist (p : P3 K) : K := |p.1 - 1 / 2| + |p.2.1| + |p.2.2 - 1|

/-- The middle of the edges at the top are no candidates: for every tolerance the search for the minimum of the distance
to one of them stays away from it, with a value of at least 1/8. -/
theorem C418_edge_refuted (tol : K) (ht : 0 < tol) (k : Nat) (p : P3 K) (h : min3d edgeDist tol ⟨0, 1, 0, 1, 0, 1⟩ k = some p) :
    edgeDist (1 / 2, 0, 1) = (0 : K) ∧ 1 / 8 ≤ edgeDist p := by
  refine ⟨by norm_num [edgeDist], ?_⟩
  have hv : ∀ q : P3 K, q.1 ≤ 3 / 8 → 1 / 8 ≤ edgeDist q := by
    intro q hq
    have h1 : 1 / 8 ≤ |q.1 - 1 / 2| := by rw [abs_of_nonpos (by linarith)]; linarith
    have h2 := abs_nonneg q.2.1
    have h3 := abs_nonneg (q.2.2 - 1)
    unfold edgeDist; linarith
  rw [min3d, Option.map_eq_some_iff] at h
  obtain ⟨b, hb, rfl⟩ := h
  cases k with
  | zero => simp [loop3] at hb
  | succ k =>
    rw [loop3] at hb
    split_ifs at hb with c
    · have hs : step3 edgeDist (⟨0, 1, 0, 1, 0, 1⟩ : Box3 K) ⟨0, 1, 0, 1, 0, 1⟩ = ⟨0, 1 / 4, 0, 1 / 4, 3 / 4, 1⟩ := by
        have ha : DnC.argmin edgeDist ((0 : K), (0 : K), (0 : K)) (cands3 ⟨0, 1, 0, 1, 0, 1⟩) = (0, 0, 1) := by
          have a1 : |(0 : K) - 1 / 2| = 1 / 2 := by rw [zero_sub, abs_neg, abs_of_pos (by norm_num)]
          have a2 : |(1 : K) - 1 / 2| = 1 / 2 := by rw [abs_of_pos (by norm_num)]; norm_num
          have a3 : |(0 : K) - 1| = 1 := by rw [zero_sub, abs_neg, abs_one]
          have a4 : |(1 : K)| = 1 := abs_one
          have a5 : |(0 + 1) / (2 : K)| = 1 / 2 := by rw [abs_of_pos (by norm_num)]; norm_num
          have a6 : |(0 + 1) / (2 : K) - 1| = 1 / 2 := by rw [abs_of_neg (by norm_num)]; norm_num
          have a7 : |(0 + 1) / (2 : K) - 1 / 2| = 0 := by norm_num
          have a8 : |(1 : K) - 1| = 0 := by norm_num
          have a9 : |(0 : K)| = 0 := abs_zero
          norm_num only [cands3, DnC.argmin, edgeDist, a1, a2, a3, a4, a5, a6, a7, a8, a9, if_true, if_false]
        rw [step3]
        simp only [ha, side]
        norm_num
      rw [hs] at hb
      obtain ⟨i1, _, _, _, i5⟩ := loop3_inv edgeDist tol _ k
        (b := (⟨0, 1 / 4, 0, 1 / 4, 3 / 4, 1⟩ : Box3 K)) (by refine ⟨⟨?_, ?_, ?_⟩, ⟨?_, ?_, ?_⟩, ⟨?_, ?_, ?_⟩⟩ <;> norm_num) hb
      apply hv
      have := i1.1.2.1
      norm_num at i5
      dsimp only
      linarith
    · cases hb
      norm_num [edgeDist]

/-! Cases: the search ends, once near the minimum, once not. -/
example : (min3d (fun p : P3 ℚ => |p.1 - 1 / 2| + |p.2.1 - 1 / 2| + |p.2.2 - 1 / 2|) (1 / 10) ⟨0, 1, 0, 1, 0, 1⟩ 9).map
    (fun p => decide (p = (1 / 2, 1 / 2, 1 / 2))) = some true := by decide +kernel
example : (min3d (edgeDist (K := ℚ)) (1 / 50) ⟨0, 1, 0, 1, 0, 1⟩ 9).map (fun p => decide (p.1 < 3 / 8)) = some true := by
  decide +kernel

/-! ## C419: `find_all_minima` -/

theorem mapM_error {α β ε : Type} {g : α → Except ε β} {e : ε} (h : ∀ a, g a = .error e) (l : List α) (hl : l ≠ []) :
    l.mapM g = .error e := by
  cases l with
  | nil => exact absurd rfl hl
  | cons a l => rw [List.mapM_cons, h]; rfl

theorem mapM_ok {α β ε : Type} {g : α → Except ε β} : ∀ {l : List α} {r : List β}, l.mapM g = .ok r →
    (∀ a ∈ l, ∃ b ∈ r, g a = .ok b) ∧ ∀ b ∈ r, ∃ a ∈ l, g a = .ok b := by
  intro l
  induction l with
  | nil =>
    intro r h
    rw [List.mapM_nil] at h
    cases h
    exact ⟨fun a h => absurd h List.not_mem_nil, fun b h => absurd h List.not_mem_nil⟩
  | cons a l ih =>
    intro r h
    rw [List.mapM_cons] at h
    cases ha : g a with
    | error e => rw [ha] at h; cases h
    | ok b =>
      cases hl : l.mapM g with
      | error e => rw [ha, hl] at h; cases h
      | ok bs =>
        rw [ha, hl] at h
        cases h
        obtain ⟨h1, h2⟩ := ih hl
        refine ⟨fun x hx => ?_, fun y hy => ?_⟩
        · rcases List.mem_cons.1 hx with rfl | hx
          · exact ⟨b, List.mem_cons_self, ha⟩
          · obtain ⟨y, hy, e⟩ := h1 x hx; exact ⟨y, List.mem_cons_of_mem _ hy, e⟩
        · rcases List.mem_cons.1 hy with rfl | hy
          · exact ⟨a, List.mem_cons_self, ha⟩
          · obtain ⟨x, hx, e⟩ := h2 y hy; exact ⟨x, List.mem_cons_of_mem _ hx, e⟩

theorem mapM_total {α β ε : Type} {g : α → Except ε β} (h : ∀ a, ∃ b, g a = .ok b) (l : List α) :
    ∃ r, l.mapM g = .ok r := by
  induction l with
  | nil => exact ⟨[], by rw [List.mapM_nil]; rfl⟩
  | cons a l ih =>
    obtain ⟨b, hb⟩ := h a
    obtain ⟨r, hr⟩ := ih
    exact ⟨b :: r, by rw [List.mapM_cons, hb, hr]; rfl⟩

theorem sieve_acc {α : Type} (far : α → α → Bool) (l : List α) : ∀ acc : List α,
    acc.Pairwise (fun p q => far q p = true) →
    let r := l.foldl (fun kept p => if kept.all (far p) then kept ++ [p] else kept) acc
    r.Pairwise (fun p q => far q p = true) ∧ (∀ p ∈ acc, p ∈ r) ∧ (∀ p ∈ r, p ∈ acc ∨ p ∈ l) ∧
      ∀ p ∈ l, p ∈ r ∨ ∃ q ∈ r, far p q = false := by
  induction l with
  | nil => intro acc h; exact ⟨h, fun p h => h, fun p h => Or.inl h, fun p h => by cases h⟩
  | cons x l ih =>
    intro acc h
    dsimp only
    rw [List.foldl_cons]
    by_cases hx : acc.all (far x) = true
    · rw [if_pos hx]
      obtain ⟨i1, i2, i3, i4⟩ := ih (acc ++ [x]) (by
        rw [List.pairwise_append]
        refine ⟨h, List.pairwise_singleton _ _, fun a ha b hb => ?_⟩
        rw [List.mem_singleton.1 hb]
        exact List.all_eq_true.1 hx a ha)
      refine ⟨i1, fun p hp => i2 p (List.mem_append_left _ hp), fun p hp => ?_, fun p hp => ?_⟩
      · rcases i3 p hp with hq | hq
        · rcases List.mem_append.1 hq with hq | hq
          · exact Or.inl hq
          · rw [List.mem_singleton.1 hq]; exact Or.inr List.mem_cons_self
        · exact Or.inr (List.mem_cons_of_mem _ hq)
      · rcases List.mem_cons.1 hp with rfl | hp
        · exact Or.inl (i2 _ (by simp))
        · exact i4 p hp
    · rw [if_neg hx]
      obtain ⟨i1, i2, i3, i4⟩ := ih acc h
      refine ⟨i1, i2, fun p hp => ?_, fun p hp => ?_⟩
      · rcases i3 p hp with hq | hq
        · exact Or.inl hq
        · exact Or.inr (List.mem_cons_of_mem _ hq)
      · rcases List.mem_cons.1 hp with rfl | hp
        · right
          rw [List.all_eq_true] at hx
          push Not at hx
          obtain ⟨q, hq, hf⟩ := hx
          exact ⟨q, i2 q hq, by simpa using hf⟩
        · exact i4 p hp

theorem sieve_spec {α : Type} (far : α → α → Bool) (l : List α) :
    (sieve far l).Pairwise (fun p q => far q p = true) ∧ (∀ p ∈ sieve far l, p ∈ l) ∧
      ∀ p ∈ l, p ∈ sieve far l ∨ ∃ q ∈ sieve far l, far p q = false := by
  obtain ⟨h1, _, h3, h4⟩ := sieve_acc far l [] List.Pairwise.nil
  exact ⟨h1, fun p hp => (h3 p hp).resolve_left (by simp), h4⟩

theorem grid_ne (xr yr : K × K) {n : Nat} (hn : 1 ≤ n) : grid xr yr n ≠ [] := by
  have hl : ∀ a b : K, ∃ t, t ∈ Cbb.linspace a b n := by
    intro a b
    by_cases h1 : n = 1
    · exact ⟨a, by rw [Cbb.linspace, if_pos h1]; simp⟩
    · exact ⟨a, (Cbb.lin_ends a b (by omega)).1⟩
  obtain ⟨x, hx⟩ := hl xr.1 xr.2
  obtain ⟨y, hy⟩ := hl yr.1 yr.2
  intro h
  have : (x, y) ∈ grid xr yr n := List.mem_flatMap.2 ⟨x, hx, List.mem_map.2 ⟨y, hy, rfl⟩⟩
  rw [h] at this
  cases this

/-- `find_all_minima` raises a `TypeError` for every function, range and grid: it hands a list to a routine that takes
a buffer. -/
theorem C419_raises_refuted (run : K × K → Option (K × K) × Hess K) (dist : K × K → K × K → K) (f : K × K → K)
    (xr yr : K × K) (n : Nat) (hn : 1 ≤ n) (tol tol2 : K) (fuel : Nat) :
    findAllMinima (cnewton run) dist f xr yr n tol tol2 fuel = .error .typeError := by
  unfold findAllMinima
  rw [mapM_error (g := fun p => cnewton run (Arg.list p)) (e := .typeError) (fun _ => rfl) _ (grid_ne xr yr hn)]
  rfl

theorem refine_ok (f : K × K → K) {tol : K} (ht : 0 < tol) (fuel : Nat) (p : K × K) (hf : 3 ≤ fuel) :
    ∃ q, refine f tol fuel p = .ok (q, f q) := by
  obtain ⟨m, rfl⟩ : ∃ m, fuel = m + 1 := ⟨fuel - 1, by omega⟩
  have hw : DnC.Within (⟨p.1 - tol, p.1 + tol, p.2 - tol, p.2 + tol⟩ : DnC.Box K)
      ⟨p.1 - tol, p.1 + tol, p.2 - tol, p.2 + tol⟩ :=
    ⟨le_rfl, by dsimp only; linarith, le_rfl, le_rfl, by dsimp only; linarith, le_rfl⟩
  have hb : ∀ c : K, (c + tol - (c - tol)) * (1 / 2) ^ m < tol := by
    intro c
    have : ((1 : K) / 2) ^ m ≤ (1 / 2) ^ 2 := pow_le_pow_of_le_one (by norm_num) (by norm_num) (by omega)
    have h2 := mul_le_mul_of_nonneg_left this (by linarith : 0 ≤ 2 * tol)
    have e : c + tol - (c - tol) = 2 * tol := by ring
    rw [e]
    norm_num at h2 ⊢
    linarith
  obtain ⟨b, hb⟩ := DnC.loop2_some (f := f) m hw (hb p.1) (hb p.2)
  exact ⟨_, by rw [refine, DnC.min2d, hb]; rfl⟩

theorem refine_near {f : K × K → K} {tol : K} (ht : 0 < tol) {fuel : Nat} {p : K × K} {r : (K × K) × K}
    (h : refine f tol fuel p = .ok r) : |r.1.1 - p.1| ≤ tol ∧ |r.1.2 - p.2| ≤ tol ∧ r.2 = f r.1 := by
  unfold refine at h
  have hw : DnC.Within (⟨p.1 - tol, p.1 + tol, p.2 - tol, p.2 + tol⟩ : DnC.Box K)
      ⟨p.1 - tol, p.1 + tol, p.2 - tol, p.2 + tol⟩ :=
    ⟨le_rfl, by dsimp only; linarith, le_rfl, le_rfl, by dsimp only; linarith, le_rfl⟩
  cases hq : DnC.min2d f tol ⟨p.1 - tol, p.1 + tol, p.2 - tol, p.2 + tol⟩ fuel with
  | none => rw [hq] at h; cases h
  | some q =>
    rw [hq] at h
    cases h
    rw [DnC.min2d, Option.map_eq_some_iff] at hq
    obtain ⟨b, hb, rfl⟩ := hq
    obtain ⟨⟨w1, w2, w3, w4, w5, w6⟩, _⟩ := DnC.loop2_spec fuel hw hb
    dsimp only at *
    refine ⟨abs_le.2 ⟨by linarith, by linarith⟩, abs_le.2 ⟨by linarith, by linarith⟩, rfl⟩

/-- The result in terms of the runs of Newton's method. -/
theorem find_spec {newton : Arg K → Except Err (Option (K × K) × Hess K)} {run : K × K → Option (K × K) × Hess K}
    (hl : ∀ p, newton (.list p) = .ok (run p)) (dist : K × K → K × K → K) (f : K × K → K)
    (xr yr : K × K) (n : Nat) (tol tol2 : K) (ht : 0 < tol) (fuel : Nat) (hf : 3 ≤ fuel) :
    ∃ (runs : List (Option (K × K) × Hess K)) (refined : List ((K × K) × K)), (∀ g ∈ grid xr yr n, run g ∈ runs) ∧ (∀ r ∈ runs, ∃ g ∈ grid xr yr n, r = run g) ∧
      (sieve (fun p q => decide (dist p q > tol2)) (runs.filterMap fun r => if isMinimum r.2 then r.1 else none)).mapM
        (refine f tol fuel) = .ok refined ∧
      findAllMinima newton dist f xr yr n tol tol2 fuel = .ok (sieve (fun p q => decide (dist p.1 q.1 > tol)) refined) := by
  obtain ⟨r, hr⟩ := mapM_total (g := fun p => newton (.list p)) (fun p => ⟨_, hl p⟩) (grid xr yr n)
  obtain ⟨s, hs⟩ := mapM_total (g := refine f tol fuel)
    (fun p => by obtain ⟨q, h⟩ := refine_ok f ht fuel p hf; exact ⟨_, h⟩)
    (sieve (fun p q => decide (dist p q > tol2)) (r.filterMap fun r => if isMinimum r.2 then r.1 else none))
  obtain ⟨h1, h2⟩ := mapM_ok hr
  refine ⟨r, s, fun g hg => ?_, fun x hx => ?_, hs, ?_⟩
  · obtain ⟨b, hb, e⟩ := h1 g hg
    rw [hl] at e
    cases e
    exact hb
  · obtain ⟨g, hg, e⟩ := h2 x hx
    rw [hl] at e
    cases e
    exact ⟨g, hg, rfl⟩
  · unfold findAllMinima
    rw [hr]
    simp only [bind, Except.bind, hs]
    rfl

/-- The Hessian is positive definite. -/
def PosDef (H : Hess K) : Prop := ∀ u v : K, (u ≠ 0 ∨ v ≠ 0) → 0 < H.xx * u * u + 2 * H.xy * u * v + H.yy * v * v

theorem isMinimum_iff (H : Hess K) : isMinimum H = true ↔ PosDef H := by
  unfold isMinimum PosDef
  simp only [Bool.and_eq_true, decide_eq_true_eq, gt_iff_lt]
  constructor
  · rintro ⟨hd, hx⟩ u v huv
    have key : H.xx * (H.xx * u * u + 2 * H.xy * u * v + H.yy * v * v) =
        (H.xx * u + H.xy * v) ^ 2 + (H.xx * H.yy - H.xy * H.xy) * v ^ 2 := by ring
    have : 0 < H.xx * (H.xx * u * u + 2 * H.xy * u * v + H.yy * v * v) := by
      rw [key]
      by_cases hv : v = 0
      · subst hv
        have hu : u ≠ 0 := by simpa using huv
        have : H.xx * u ≠ 0 := mul_ne_zero hx.ne' hu
        have := pow_pos (abs_pos.2 this) 2
        rw [sq_abs] at this
        simpa using this
      · have h1 := sq_nonneg (H.xx * u + H.xy * v)
        have h2 : 0 < v ^ 2 := by positivity
        have h3 := mul_pos hd h2
        linarith
    exact (mul_pos_iff_of_pos_left hx).1 this
  · intro h
    have hx : 0 < H.xx := by simpa using h 1 0 (by simp)
    refine ⟨?_, hx⟩
    have h1 := h (-H.xy) H.xx (Or.inr hx.ne')
    have key : H.xx * -H.xy * -H.xy + 2 * H.xy * -H.xy * H.xx + H.yy * H.xx * H.xx = H.xx * (H.xx * H.yy - H.xy * H.xy) := by ring
    rw [key] at h1
    exact (mul_pos_iff_of_pos_left hx).1 h1

/-- With a Newton routine that takes lists, `find_all_minima` returns points that are more than the tolerance apart, each
within the tolerance of a run that ended at a minimum, with their values; and near every such end there is one. -/
theorem C419_minima_partial {newton : Arg K → Except Err (Option (K × K) × Hess K)} {run : K × K → Option (K × K) × Hess K}
    (hl : ∀ p, newton (.list p) = .ok (run p)) (dist : K × K → K × K → K) (f : K × K → K)
    (h0 : ∀ p, dist p p = 0) (htri : ∀ p q r, dist p r ≤ dist p q + dist q r)
    (h1 : ∀ p q, dist p q ≤ |q.1 - p.1| + |q.2 - p.2|)
    (xr yr : K × K) (n : Nat) (tol tol2 : K) (ht : 0 < tol) (ht2 : 0 ≤ tol2) (fuel : Nat) (hf : 3 ≤ fuel) :
    ∃ R, findAllMinima newton dist f xr yr n tol tol2 fuel = .ok R ∧
      R.Pairwise (fun p q => dist q.1 p.1 > tol) ∧
      (∀ r ∈ R, r.2 = f r.1 ∧ ∃ g ∈ grid xr yr n, ∃ p H, run g = (some p, H) ∧ PosDef H ∧
        |r.1.1 - p.1| ≤ tol ∧ |r.1.2 - p.2| ≤ tol) ∧
      ∀ g ∈ grid xr yr n, ∀ p H, run g = (some p, H) → PosDef H →
        ∃ r ∈ R, dist p r.1 ≤ tol2 + 3 * tol := by
  obtain ⟨runs, refined, a1, a2, a3, a4⟩ := find_spec hl dist f xr yr n tol tol2 ht fuel hf
  obtain ⟨b1, b2⟩ := mapM_ok a3
  obtain ⟨c1, c2, c3⟩ := sieve_spec (fun p q : (K × K) × K => decide (dist p.1 q.1 > tol)) refined
  obtain ⟨_, d2, d3⟩ := sieve_spec (fun p q : K × K => decide (dist p q > tol2))
    (runs.filterMap fun r => if isMinimum r.2 then r.1 else none)
  refine ⟨_, a4, c1.imp fun h => of_decide_eq_true h, fun r hr => ?_, fun g hg p H hrun hmin => ?_⟩
  · obtain ⟨p, hp, e⟩ := b2 r (c2 r hr)
    obtain ⟨n1, n2, n3⟩ := refine_near ht e
    obtain ⟨x, hx, ex⟩ := List.mem_filterMap.1 (d2 p hp)
    obtain ⟨g, hg, rfl⟩ := a2 x hx
    split_ifs at ex with hm
    exact ⟨n3, g, hg, p, (run g).2, by rw [← ex], (isMinimum_iff _).1 hm, n1, n2⟩
  · have hp : p ∈ runs.filterMap fun r => if isMinimum r.2 then r.1 else none :=
      List.mem_filterMap.2 ⟨run g, a1 g hg, by rw [hrun]; exact if_pos ((isMinimum_iff _).2 hmin)⟩
    obtain ⟨q, hq, hpq⟩ : ∃ q ∈ sieve (fun p q : K × K => decide (dist p q > tol2))
        (runs.filterMap fun r => if isMinimum r.2 then r.1 else none), dist p q ≤ tol2 := by
      rcases d3 p hp with h | ⟨q, hq, h⟩
      · exact ⟨p, h, by rw [h0]; exact ht2⟩
      · exact ⟨q, hq, by simpa using h⟩
    obtain ⟨r, hr, e⟩ := b1 q hq
    obtain ⟨n1, n2, _⟩ := refine_near ht e
    obtain ⟨s, hs, hrs⟩ : ∃ s ∈ sieve (fun p q : (K × K) × K => decide (dist p.1 q.1 > tol)) refined, dist r.1 s.1 ≤ tol := by
      rcases c3 r hr with h | ⟨s, hs, h⟩
      · exact ⟨r, h, by rw [h0]; exact ht.le⟩
      · exact ⟨s, hs, by simpa using h⟩
    refine ⟨s, hs, ?_⟩
    have t1 := htri p q s.1
    have t2 := htri q r.1 s.1
    have t3 := h1 q r.1
    linarith

/-- The answers need not lie in the range: if all runs end at one minimum, the answer is there, wherever that is. -/
theorem C419_range_refuted {newton : Arg K → Except Err (Option (K × K) × Hess K)} {run : K × K → Option (K × K) × Hess K}
    (hl : ∀ p, newton (.list p) = .ok (run p)) (dist : K × K → K × K → K) (f : K × K → K)
    (h0 : ∀ p, dist p p = 0) (htri : ∀ p q r, dist p r ≤ dist p q + dist q r)
    (h1 : ∀ p q, dist p q ≤ |q.1 - p.1| + |q.2 - p.2|)
    (xr yr : K × K) (n : Nat) (hn : 1 ≤ n) (tol tol2 : K) (ht : 0 < tol) (ht2 : 0 ≤ tol2) (fuel : Nat) (hf : 3 ≤ fuel)
    (p : K × K) (H : Hess K) (hrun : ∀ g, run g = (some p, H)) (hmin : PosDef H) (hout : xr.2 + tol < p.1) :
    ∃ R, findAllMinima newton dist f xr yr n tol tol2 fuel = .ok R ∧ R ≠ [] ∧ ∀ r ∈ R, xr.2 < r.1.1 := by
  obtain ⟨R, e, _, h2, h3⟩ := C419_minima_partial hl dist f h0 htri h1 xr yr n tol tol2 ht ht2 fuel hf
  refine ⟨R, e, ?_, fun r hr => ?_⟩
  · obtain ⟨g, hg⟩ := List.exists_mem_of_ne_nil _ (grid_ne xr yr hn)
    obtain ⟨r, hr, _⟩ := h3 g hg p H (hrun g) hmin
    exact List.ne_nil_of_mem hr
  · obtain ⟨_, g, _, q, H', e2, _, n1, _⟩ := h2 r hr
    rw [hrun] at e2
    cases e2
    have := (abs_le.1 n1).1
    linarith

/-! A case: two wells. -/

/-- The sum of the distances in each coordinate. -/
def dist1 (p q : ℚ × ℚ) : ℚ := |q.1 - p.1| + |q.2 - p.2|

/-- Runs that end at the nearer of two wells. -/
def wells (p : ℚ × ℚ) : Option (ℚ × ℚ) × Hess ℚ := (some (if p.1 < 1 / 2 then (0, 0) else (1, 0)), ⟨1, 0, 1⟩)

example : (∀ p, dist1 p p = 0) ∧ (∀ p q r, dist1 p r ≤ dist1 p q + dist1 q r) := by
  refine ⟨fun p => by simp [dist1], fun p q r => ?_⟩
  have h1 := abs_sub_le r.1 q.1 p.1
  have h2 := abs_sub_le r.2 q.2 p.2
  unfold dist1
  linarith

example : (match findAllMinima (fun a => match a with | .list p => .ok (wells p) | .array p => .ok (wells p)) dist1
    (fun p => p.1 * p.1 * (p.1 - 1) * (p.1 - 1) + p.2 * p.2) (0, 1) (0, 1) 3 (1 / 100) (1 / 10) 5 with
    | .ok R => decide (R.length = 2) | .error _ => false) = true := by decide +kernel

end Verif.Mnm
