import Verif.Dc.Props2

/-! # C346–C348: merged cells, normals and features -/

set_option linter.unusedSectionVars false

namespace Verif.Dc
open Verif.ImplTree

variable {K : Type} [Field K] [LinearOrder K] [IsStrictOrderedRing K]

/-! ## C346 -/

/-- The interpolation takes the values of the shape at the corners. -/
theorem C346_corners (s : P K → K) (c : Q K) (hx : c.1.1 < c.2.1) (hy : c.1.2 < c.2.2) (p : P K)
    (hp : (p.1 = c.1.1 ∨ p.1 = c.2.1) ∧ (p.2 = c.1.2 ∨ p.2 = c.2.2)) : interpolate s c p = s p := by
  have w : c.2.1 - c.1.1 ≠ 0 := ne_of_gt (sub_pos.2 hx)
  have h : c.2.2 - c.1.2 ≠ 0 := ne_of_gt (sub_pos.2 hy)
  obtain ⟨x, y⟩ := p
  simp only at hp
  unfold interpolate
  rcases hp with ⟨rfl | rfl, rfl | rfl⟩ <;> simp [w, h]

/-- And it is exact for shapes that are bilinear. -/
theorem C346_bilinear (a b d e : K) (c : Q K) (hx : c.1.1 < c.2.1) (hy : c.1.2 < c.2.2) (p : P K) :
    interpolate (fun p => a + b * p.1 + d * p.2 + e * (p.1 * p.2)) c p = a + b * p.1 + d * p.2 + e * (p.1 * p.2) := by
  have w : c.2.1 - c.1.1 ≠ 0 := ne_of_gt (sub_pos.2 hx)
  have h : c.2.2 - c.1.2 ≠ 0 := ne_of_gt (sub_pos.2 hy)
  have e1 : c.1.1 + (p.1 - c.1.1) / (c.2.1 - c.1.1) * (c.2.1 - c.1.1) = p.1 := by rw [div_mul_cancel₀ _ w]; ring
  have e2 : c.1.2 + (p.2 - c.1.2) / (c.2.2 - c.1.2) * (c.2.2 - c.1.2) = p.2 := by rw [div_mul_cancel₀ _ h]; ring
  unfold interpolate
  simp only
  generalize (p.1 - c.1.1) / (c.2.1 - c.1.1) = u at *
  generalize (p.2 - c.1.2) / (c.2.2 - c.1.2) = v at *
  rw [← e1, ← e2]
  ring

/-- A tree whose leaves hold the boxes of their places. -/
def Placed : T 4 (Q K) → Q K → Prop
  | .leaf d, q => d = q
  | .root ch, q => ∀ j, Placed (ch j) (quadSplit q j)
  | .empty t, q => Placed t q
  | .full t, q => Placed t q

theorem placed_build (i : Nat) : ∀ q : Q K, Placed (buildTree quadSplit i q) q := by
  induction i with
  | zero => intro q; rfl
  | succ i ih => exact fun q j => ih _

theorem split_ends (q : Q K) : ((quadSplit q 0).1, (quadSplit q 3).2) = q := rfl

/-- The five points at which a merged cell is checked: the centre and the middles of the sides. -/
def five (q : Q K) : List (P K) :=
  let xm := (q.1.1 + q.2.1) / 2
  let ym := (q.1.2 + q.2.2) / 2
  [(xm, ym), (xm, q.1.2), (q.2.1, ym), (q.1.1, ym), (xm, q.2.2)]

theorem merge4_cases (s : P K → K) (ch : Fin 4 → T 4 (Q K)) (q : Q K) (h : ∀ j, Placed (ch j) (quadSplit q j)) :
    (merge4 s ch = .leaf q ∧ (∀ j, ch j = .leaf (quadSplit q j)) ∧ ∀ p ∈ five q, score s q p < 1 / 1000) ∨
    (merge4 s ch = .root ch ∧ ¬((∀ j, ch j = .leaf (quadSplit q j)) ∧ ∀ p ∈ five q, score s q p < 1 / 1000)) := by
  have hl : ∀ j d, ch j = .leaf d → d = quadSplit q j := by
    intro j d e
    have := h j
    rw [e] at this
    exact this
  by_cases hall : ∀ j, ch j = .leaf (quadSplit q j)
  · have e0 := hall 0
    have e1 := hall 1
    have e2 := hall 2
    have e3 := hall 3
    have hm : merge4 s ch = if (five q).all (fun p => decide (score s q p < 1 / 1000)) then .leaf q else .root ch := by
      unfold merge4
      rw [e0, e1, e2, e3]
      rfl
    by_cases hs : ∀ p ∈ five q, score s q p < 1 / 1000
    · left
      refine ⟨?_, hall, hs⟩
      rw [hm, if_pos]
      rw [List.all_eq_true]
      exact fun p hp => decide_eq_true (hs p hp)
    · right
      refine ⟨?_, fun x => hs x.2⟩
      rw [hm, if_neg]
      rw [List.all_eq_true]
      exact fun hc => hs fun p hp => of_decide_eq_true (hc p hp)
  · right
    refine ⟨?_, fun x => hall x.1⟩
    unfold merge4
    split
    · rename_i a b c d e0 e1 e2 e3
      exact absurd (fun j => by
        fin_cases j
        · exact e0.trans (by rw [hl 0 a e0]; rfl)
        · exact e1.trans (by rw [hl 1 b e1]; rfl)
        · exact e2.trans (by rw [hl 2 c e2]; rfl)
        · exact e3.trans (by rw [hl 3 d e3]; rfl)) hall
    · rfl

theorem placed_merge (s : P K → K) (t : T 4 (Q K)) : ∀ q, Placed t q → t.pure → Placed (merge s t) q ∧ (merge s t).pure := by
  induction t with
  | leaf d => intro q h _; exact ⟨h, trivial⟩
  | empty t _ => intro q _ hp; exact absurd hp id
  | full t _ => intro q _ hp; exact absurd hp id
  | root ch ih =>
    intro q h hp
    have hj : ∀ j, Placed (merge s (ch j)) (quadSplit q j) := fun j => (ih j _ (h j) (hp j)).1
    unfold merge
    rcases merge4_cases s (fun i => merge s (ch i)) q hj with ⟨e, _, _⟩ | ⟨e, _⟩
    · rw [e]; exact ⟨rfl, trivial⟩
    · rw [e]; exact ⟨hj, fun j => (ih j _ (h j) (hp j)).2⟩

theorem placed_tiles (t : T 4 (Q K)) : ∀ q, Placed t q → t.pure → Tiles (geo2 K) t.leaves q := by
  induction t with
  | leaf d => intro q h _; rw [show d = q from h]; exact tiles_single q
  | empty t _ => intro q _ hp; exact absurd hp id
  | full t _ => intro q _ hp; exact absurd hp id
  | root ch ih =>
    intro q h hp
    exact tiles_flatMap (List.finRange 4) (quadSplit q) _ q (quad_splits q) (fun j _ => ih j _ (h j) (hp j))

/-- C346: the cells of a merged tree still tile the domain. -/
theorem C346_tiles (s : P K → K) (i : Nat) (q : Q K) : Tiles (geo2 K) (merge s (buildTree quadSplit i q)).leaves q := by
  obtain ⟨h1, h2⟩ := placed_merge s _ q (placed_build i q) (buildTree_pure quadSplit i q)
  exact placed_tiles _ q h1 h2

/-- Every cell of the merged tree is one of the cells before, or differs from its bilinear interpolation by less than 0.001 at its centre and at the
middles of its sides. -/
theorem C346_error (s : P K → K) (t : T 4 (Q K)) : ∀ q, Placed t q → t.pure → ∀ c ∈ (merge s t).leaves,
    c ∈ t.leaves ∨ ∀ p ∈ five c, |interpolate s c p - s p| < 1 / 1000 := by
  induction t with
  | leaf d => intro q _ _ c hc; exact Or.inl hc
  | empty t _ => intro q _ hp; exact absurd hp id
  | full t _ => intro q _ hp; exact absurd hp id
  | root ch ih =>
    intro q h hp c hc
    have hj : ∀ j, Placed (merge s (ch j)) (quadSplit q j) := fun j => (placed_merge s (ch j) _ (h j) (hp j)).1
    unfold merge at hc
    rcases merge4_cases s (fun i => merge s (ch i)) q hj with ⟨e, _, e2⟩ | ⟨e, _⟩
    · rw [e] at hc
      have : c = q := by simpa [T.leaves] using hc
      rw [this]
      exact Or.inr e2
    · rw [e] at hc
      obtain ⟨j, hj1, hj2⟩ := List.mem_flatMap.1 hc
      rcases ih j _ (h j) (hp j) c hj2 with h' | h'
      · exact Or.inl (List.mem_flatMap.2 ⟨j, hj1, h'⟩)
      · exact Or.inr h'

/-- Four cells that could be merged are merged: no node of the result has four cells as children that differ so little. -/
theorem C346_merged (s : P K → K) (ch : Fin 4 → T 4 (Q K)) (q : Q K)
    (hm : ∀ j, merge s (ch j) = .leaf (quadSplit q j)) (hs : ∀ p ∈ five q, |interpolate s q p - s p| < 1 / 1000) :
    merge s (.root ch) = .leaf q := by
  have hj : ∀ j, Placed (merge s (ch j)) (quadSplit q j) := fun j => by rw [hm j]; rfl
  unfold merge
  rcases merge4_cases s (fun i => merge s (ch i)) q hj with ⟨e, _, _⟩ | ⟨_, e⟩
  · exact e
  · exact absurd ⟨hm, hs⟩ e

theorem split_valid (q : Q K) (hx : q.1.1 < q.2.1) (hy : q.1.2 < q.2.2) (j : Fin 4) :
    (quadSplit q j).1.1 < (quadSplit q j).2.1 ∧ (quadSplit q j).1.2 < (quadSplit q j).2.2 := by
  obtain ⟨⟨x0, y0⟩, ⟨x1, y1⟩⟩ := q
  simp only at hx hy
  fin_cases j <;> simp only [quadSplit] <;> constructor <;> simp <;> linarith

/-- So a bilinear shape leaves one cell, whatever the depth of the tree. -/
theorem C346_one (a b d e : K) (i : Nat) : ∀ q : Q K, q.1.1 < q.2.1 → q.1.2 < q.2.2 →
    merge (fun p => a + b * p.1 + d * p.2 + e * (p.1 * p.2)) (buildTree quadSplit i q) = .leaf q := by
  induction i with
  | zero => intro q _ _; rfl
  | succ i ih =>
    intro q hx hy
    refine C346_merged _ _ q (fun j => ih _ (split_valid q hx hy j).1 (split_valid q hx hy j).2) ?_
    intro p _
    rw [C346_bilinear a b d e q hx hy p, sub_self, abs_zero]
    norm_num

example : (merge (fun p : P ℚ => p.1 * p.1 / 100) (buildTree quadSplit 2 ((0, 0), (1, 1)))).leaves.length = 4 ∧
    (merge (fun p : P ℚ => p.1 * p.1) (buildTree quadSplit 2 ((0, 0), (1, 1)))).leaves.length = 16 := by decide +kernel

/-! ## C347 -/

theorem sqrt_pos (sqrt : K → K) (hs : IsSqrt sqrt) (y : K) (h : 0 < y) : 0 < sqrt y := by
  obtain ⟨h1, h2⟩ := hs y h.le
  rcases h1.lt_or_eq with h3 | h3
  · exact h3
  · rw [← h3] at h2
    linarith

/-- C347: `deriv` returns a vector of length one, a positive multiple of the differences, and has no value exactly where both differences vanish. -/
theorem C347_unit (sqrt : K → K) (hs : IsSqrt sqrt) (s : P K → K) (p : P K) :
    let dx := s (p.1 + 1 / 1000, p.2) - s (p.1 - 1 / 1000, p.2)
    let dy := s (p.1, p.2 + 1 / 1000) - s (p.1, p.2 - 1 / 1000)
    (deriv sqrt s p = none ↔ dx = 0 ∧ dy = 0) ∧
    ∀ n, deriv sqrt s p = some n → n.1 ^ 2 + n.2 ^ 2 = 1 ∧ ∃ l, 0 < l ∧ dx = l * n.1 ∧ dy = l * n.2 := by
  intro dx dy
  have h0 : 0 ≤ dx ^ 2 + dy ^ 2 := by positivity
  obtain ⟨h1, h2⟩ := hs _ h0
  have hd : deriv sqrt s p = if sqrt (dx ^ 2 + dy ^ 2) = 0 then none else some (dx / sqrt (dx ^ 2 + dy ^ 2), dy / sqrt (dx ^ 2 + dy ^ 2)) := rfl
  rw [hd]
  clear_value dx dy
  generalize sqrt (dx ^ 2 + dy ^ 2) = l at *
  constructor
  · constructor
    · intro h
      have hl : l = 0 := by
        by_contra hc
        rw [if_neg hc] at h
        exact absurd h (by simp)
      rw [hl] at h2
      have : dx ^ 2 + dy ^ 2 = 0 := by rw [← h2]; ring
      exact ⟨by nlinarith [sq_nonneg dx, sq_nonneg dy], by nlinarith [sq_nonneg dx, sq_nonneg dy]⟩
    · rintro ⟨rfl, rfl⟩
      have : l = 0 := mul_self_eq_zero.1 (by rw [h2]; ring)
      rw [if_pos this]
  · intro n hn
    by_cases hl : l = 0
    · rw [if_pos hl] at hn
      exact absurd hn (by simp)
    · rw [if_neg hl, Option.some_inj] at hn
      subst hn
      refine ⟨?_, l, lt_of_le_of_ne h1 (Ne.symm hl), (mul_div_cancel₀ _ hl).symm, (mul_div_cancel₀ _ hl).symm⟩
      simp only [div_pow]
      rw [← add_div, ← h2, ← pow_two, div_self (pow_ne_zero 2 hl)]

/-- For an affine shape it is the direction of the gradient. -/
theorem C347_affine (sqrt : K → K) (hs : IsSqrt sqrt) (a b c : K) (h : b ≠ 0 ∨ c ≠ 0) (p : P K) :
    ∃ n l, deriv sqrt (fun p => a + b * p.1 + c * p.2) p = some n ∧ n.1 ^ 2 + n.2 ^ 2 = 1 ∧ 0 < l ∧ b = l * n.1 ∧ c = l * n.2 := by
  have hu := C347_unit sqrt hs (fun p => a + b * p.1 + c * p.2) p
  simp only at hu
  have e1 : a + b * (p.1 + 1 / 1000) + c * p.2 - (a + b * (p.1 - 1 / 1000) + c * p.2) = b / 500 := by ring
  have e2 : a + b * p.1 + c * (p.2 + 1 / 1000) - (a + b * p.1 + c * (p.2 - 1 / 1000)) = c / 500 := by ring
  rw [e1, e2] at hu
  cases hd : deriv sqrt (fun p => a + b * p.1 + c * p.2) p with
  | none =>
    have := hu.1.1 hd
    rcases h with h | h
    · exact absurd (by linarith [this.1]) h
    · exact absurd (by linarith [this.2]) h
  | some n =>
    obtain ⟨h1, l, hl, h2, h3⟩ := hu.2 n hd
    exact ⟨n, 500 * l, rfl, h1, by linarith, by linarith, by linarith⟩

example : deriv (fun y : ℚ => if y = 1 / 10000 then 1 / 100 else 0) (fun p => 4 * p.1 + 3 * p.2 - 1) (5, 7) = some (4 / 5, 3 / 5) := by
  decide +kernel

/-! ## C348 -/

/-- The sum of the squared residuals. -/
def resid (a : List (P K)) (b : List K) (x : P K) : K := ((a.zip b).map fun e => (e.1.1 * x.1 + e.1.2 * x.2 - e.2) ^ 2).sum

/-- What `np.linalg.lstsq` does: it returns the shortest of the minimisers of the residual. -/
structure LeastSq (lstsq : List (P K) → List K → P K) : Prop where
  min : ∀ a b x, resid a b (lstsq a b) ≤ resid a b x
  short : ∀ a b x, resid a b x ≤ resid a b (lstsq a b) → (lstsq a b).1 ^ 2 + (lstsq a b).2 ^ 2 ≤ x.1 ^ 2 + x.2 ^ 2

theorem resid_zero (a : List (P K)) (b : List K) (x : P K) (h : resid a b x ≤ 0) : ∀ e ∈ a.zip b, e.1.1 * x.1 + e.1.2 * x.2 = e.2 := by
  unfold resid at h
  generalize a.zip b = l at h ⊢
  have hn : ∀ l : List (P K × K), 0 ≤ (l.map fun e => (e.1.1 * x.1 + e.1.2 * x.2 - e.2) ^ 2).sum := by
    intro l
    apply List.sum_nonneg
    intro y hy
    obtain ⟨e, _, rfl⟩ := List.mem_map.1 hy
    positivity
  induction l with
  | nil => intro e he; exact absurd he (by simp)
  | cons e l ih =>
    rw [List.map_cons, List.sum_cons] at h
    have h1 := hn l
    have h2 : 0 ≤ (e.1.1 * x.1 + e.1.2 * x.2 - e.2) ^ 2 := by positivity
    intro f hf
    rcases List.mem_cons.1 hf with rfl | hf
    · have : (f.1.1 * x.1 + f.1.2 * x.2 - f.2) ^ 2 = 0 := le_antisymm (by linarith) h2
      have := pow_eq_zero_iff (two_ne_zero) |>.1 this
      linarith
    · exact ih (by linarith) f hf

theorem resid_exact (a : List (P K)) (b : List K) (x : P K) (h : ∀ e ∈ a.zip b, e.1.1 * x.1 + e.1.2 * x.2 = e.2) : resid a b x = 0 := by
  unfold resid
  apply List.sum_eq_zero
  intro y hy
  obtain ⟨e, he, rfl⟩ := List.mem_map.1 hy
  rw [h e he]
  ring

/-- A solver that keeps the law: the normal equations, or the multiple of the right-hand side when they are singular. -/
def lsq (a : List (P K)) (b : List K) : P K :=
  let l := a.zip b
  let g1 := (l.map fun e => e.1.1 ^ 2).sum
  let g2 := (l.map fun e => e.1.1 * e.1.2).sum
  let g3 := (l.map fun e => e.1.2 ^ 2).sum
  let c1 := (l.map fun e => e.1.1 * e.2).sum
  let c2 := (l.map fun e => e.1.2 * e.2).sum
  if g1 * g3 - g2 ^ 2 = 0 then if g1 + g3 = 0 then (0, 0) else (c1 / (g1 + g3), c2 / (g1 + g3))
  else ((c1 * g3 - c2 * g2) / (g1 * g3 - g2 ^ 2), (g1 * c2 - g2 * c1) / (g1 * g3 - g2 ^ 2))

theorem lin_sum (l : List (P K × K)) (d1 d2 : K) :
    (l.map fun e => (e.1.1 * d1 + e.1.2 * d2) ^ 2).sum = (l.map fun e => e.1.1 ^ 2).sum * d1 ^ 2 + 2 * (l.map fun e => e.1.1 * e.1.2).sum * d1 * d2
      + (l.map fun e => e.1.2 ^ 2).sum * d2 ^ 2 := by
  induction l with
  | nil => simp
  | cons e l ih => simp only [List.map_cons, List.sum_cons, ih]; ring

theorem sq_sum_nonneg {α : Type} (l : List α) (f : α → K) : 0 ≤ (l.map fun e => f e ^ 2).sum := by
  apply List.sum_nonneg
  intro y hy
  obtain ⟨e, _, rfl⟩ := List.mem_map.1 hy
  positivity

theorem sq_sum_zero {α : Type} (l : List α) (f : α → K) (h : (l.map fun e => f e ^ 2).sum = 0) : ∀ e ∈ l, f e = 0 := by
  induction l with
  | nil => intro e he; exact absurd he (by simp)
  | cons a l ih =>
    rw [List.map_cons, List.sum_cons] at h
    have h1 := sq_sum_nonneg l f
    have h2 : 0 ≤ f a ^ 2 := by positivity
    intro e he
    rcases List.mem_cons.1 he with rfl | he
    · exact pow_eq_zero_iff two_ne_zero |>.1 (le_antisymm (by linarith) h2)
    · exact ih (by linarith) e he

theorem lin_c (l : List (P K × K)) (d1 d2 : K) :
    (l.map fun e => e.1.1 * e.2).sum * d1 + (l.map fun e => e.1.2 * e.2).sum * d2 = (l.map fun e => (e.1.1 * d1 + e.1.2 * d2) * e.2).sum := by
  induction l with
  | nil => simp
  | cons e l ih => simp only [List.map_cons, List.sum_cons, ← ih]; ring

theorem resid_quad (a : List (P K)) (b : List K) (x d : P K) :
    resid a b (x.1 + d.1, x.2 + d.2) = resid a b x + ((a.zip b).map fun e => (e.1.1 * d.1 + e.1.2 * d.2) ^ 2).sum
      + 2 * (d.1 * (((a.zip b).map fun e => e.1.1 ^ 2).sum * x.1 + ((a.zip b).map fun e => e.1.1 * e.1.2).sum * x.2 - ((a.zip b).map fun e => e.1.1 * e.2).sum)
        + d.2 * (((a.zip b).map fun e => e.1.1 * e.1.2).sum * x.1 + ((a.zip b).map fun e => e.1.2 ^ 2).sum * x.2 - ((a.zip b).map fun e => e.1.2 * e.2).sum)) := by
  unfold resid
  generalize a.zip b = l
  induction l with
  | nil => simp
  | cons e l ih => simp only [List.map_cons, List.sum_cons, ih]; ring

/-- The law can be kept. -/
theorem lsq_spec : LeastSq (K := K) lsq := by
  have key : ∀ (a : List (P K)) (b : List K),
      (((a.zip b).map fun e => e.1.1 ^ 2).sum * (lsq a b).1 + ((a.zip b).map fun e => e.1.1 * e.1.2).sum * (lsq a b).2 = ((a.zip b).map fun e => e.1.1 * e.2).sum ∧
      ((a.zip b).map fun e => e.1.1 * e.1.2).sum * (lsq a b).1 + ((a.zip b).map fun e => e.1.2 ^ 2).sum * (lsq a b).2 = ((a.zip b).map fun e => e.1.2 * e.2).sum) ∧
      ∀ d : P K, ((a.zip b).map fun e => (e.1.1 * d.1 + e.1.2 * d.2) ^ 2).sum = 0 → (lsq a b).1 * d.1 + (lsq a b).2 * d.2 = 0 := by
    intro a b
    have hn : ∀ d1 d2 : K, ((a.zip b).map fun e => (e.1.1 * d1 + e.1.2 * d2) ^ 2).sum = 0 →
        ((a.zip b).map fun e => e.1.1 * e.2).sum * d1 + ((a.zip b).map fun e => e.1.2 * e.2).sum * d2 = 0 := by
      intro d1 d2 h
      have := sq_sum_zero (a.zip b) (fun e => e.1.1 * d1 + e.1.2 * d2) h
      rw [lin_c]
      apply List.sum_eq_zero
      intro y hy
      obtain ⟨e, he, rfl⟩ := List.mem_map.1 hy
      rw [this e he, zero_mul]
    have p1 := sq_sum_nonneg (a.zip b) (fun e => e.1.1)
    have p3 := sq_sum_nonneg (a.zip b) (fun e => e.1.2)
    have hpos : ∀ d1 d2 : K, 0 ≤ ((a.zip b).map fun e => (e.1.1 * d1 + e.1.2 * d2) ^ 2).sum :=
      fun d1 d2 => sq_sum_nonneg (a.zip b) (fun e => e.1.1 * d1 + e.1.2 * d2)
    simp only [lin_sum] at hn hpos ⊢
    unfold lsq
    simp only
    generalize ((a.zip b).map fun e => e.1.1 ^ 2).sum = g1 at *
    generalize ((a.zip b).map fun e => e.1.1 * e.1.2).sum = g2 at *
    generalize ((a.zip b).map fun e => e.1.2 ^ 2).sum = g3 at *
    generalize ((a.zip b).map fun e => e.1.1 * e.2).sum = c1 at *
    generalize ((a.zip b).map fun e => e.1.2 * e.2).sum = c2 at *
    by_cases hd : g1 * g3 - g2 ^ 2 = 0
    · rw [if_pos hd]
      have k1 := hn g3 (-g2) (by linear_combination g3 * hd)
      have k2 := hn (-g2) g1 (by linear_combination g1 * hd)
      by_cases ht : g1 + g3 = 0
      · rw [if_pos ht]
        have z1 : g1 = 0 := by linarith
        have z3 : g3 = 0 := by linarith
        have z2 : g2 = 0 := by
          rw [z1, zero_mul, zero_sub, neg_eq_zero] at hd
          exact pow_eq_zero_iff two_ne_zero |>.1 hd
        subst z1 z2 z3
        have w1 := hn 1 0 (by ring)
        have w2 := hn 0 1 (by ring)
        exact ⟨⟨by linarith, by linarith⟩, fun d _ => by ring⟩
      · rw [if_neg ht]
        refine ⟨⟨?_, ?_⟩, ?_⟩
        · show g1 * (c1 / (g1 + g3)) + g2 * (c2 / (g1 + g3)) = c1
          rw [← mul_div_assoc, ← mul_div_assoc, ← add_div, div_eq_iff ht]
          linear_combination -k1
        · show g2 * (c1 / (g1 + g3)) + g3 * (c2 / (g1 + g3)) = c2
          rw [← mul_div_assoc, ← mul_div_assoc, ← add_div, div_eq_iff ht]
          linear_combination -k2
        · intro d h
          have := hn d.1 d.2 h
          show c1 / (g1 + g3) * d.1 + c2 / (g1 + g3) * d.2 = 0
          rw [div_mul_eq_mul_div, div_mul_eq_mul_div, ← add_div, this, zero_div]
    · rw [if_neg hd]
      refine ⟨⟨?_, ?_⟩, ?_⟩
      · show g1 * ((c1 * g3 - c2 * g2) / (g1 * g3 - g2 ^ 2)) + g2 * ((g1 * c2 - g2 * c1) / (g1 * g3 - g2 ^ 2)) = c1
        rw [← mul_div_assoc, ← mul_div_assoc, ← add_div, div_eq_iff hd]
        ring
      · show g2 * ((c1 * g3 - c2 * g2) / (g1 * g3 - g2 ^ 2)) + g3 * ((g1 * c2 - g2 * c1) / (g1 * g3 - g2 ^ 2)) = c2
        rw [← mul_div_assoc, ← mul_div_assoc, ← add_div, div_eq_iff hd]
        ring
      · intro d h
        have hx : (g1 * g3 - g2 ^ 2) * d.1 ^ 2 + (g2 * d.1 + g3 * d.2) ^ 2 = 0 := by linear_combination g3 * h
        have hy : (g1 * g3 - g2 ^ 2) * d.2 ^ 2 + (g1 * d.1 + g2 * d.2) ^ 2 = 0 := by linear_combination g1 * h
        have hdet : 0 ≤ g1 * g3 - g2 ^ 2 := by
          rcases p3.lt_or_eq with h3 | h3
          · have := hpos g3 (-g2)
            by_contra hc
            push Not at hc
            nlinarith
          · have := hpos g2 (-g1)
            by_contra hc
            push Not at hc
            have := hpos (-g2) (g1 + 1)
            have := hpos 1 (-g2)
            have := hpos (-g2) 1
            nlinarith
        have hp : 0 < g1 * g3 - g2 ^ 2 := lt_of_le_of_ne hdet (Ne.symm hd)
        have x0 : d.1 = 0 := by
          have : (g1 * g3 - g2 ^ 2) * d.1 ^ 2 = 0 := le_antisymm (by nlinarith [sq_nonneg (g2 * d.1 + g3 * d.2)]) (by positivity)
          exact pow_eq_zero_iff two_ne_zero |>.1 ((mul_eq_zero.1 this).resolve_left hd)
        have y0 : d.2 = 0 := by
          have : (g1 * g3 - g2 ^ 2) * d.2 ^ 2 = 0 := le_antisymm (by nlinarith [sq_nonneg (g1 * d.1 + g2 * d.2)]) (by positivity)
          exact pow_eq_zero_iff two_ne_zero |>.1 ((mul_eq_zero.1 this).resolve_left hd)
        rw [x0, y0]
        ring
  have ex : ∀ (a : List (P K)) (b : List K) (x : P K), resid a b x = resid a b (lsq a b)
      + ((a.zip b).map fun e => (e.1.1 * (x.1 - (lsq a b).1) + e.1.2 * (x.2 - (lsq a b).2)) ^ 2).sum := by
    intro a b x
    have h := resid_quad a b (lsq a b) (x.1 - (lsq a b).1, x.2 - (lsq a b).2)
    obtain ⟨⟨h1, h2⟩, _⟩ := key a b
    simp only [h1, h2, sub_self, mul_zero, add_zero, add_sub_cancel] at h
    exact h
  constructor
  · intro a b x
    rw [ex a b x]
    have := sq_sum_nonneg (a.zip b) (fun e => e.1.1 * (x.1 - (lsq a b).1) + e.1.2 * (x.2 - (lsq a b).2))
    linarith
  · intro a b x h
    rw [ex a b x] at h
    have h0 := sq_sum_nonneg (a.zip b) (fun e => e.1.1 * (x.1 - (lsq a b).1) + e.1.2 * (x.2 - (lsq a b).2))
    have := (key a b).2 (x.1 - (lsq a b).1, x.2 - (lsq a b).2) (le_antisymm (by linarith) h0)
    simp only at this
    nlinarith [sq_nonneg (x.1 - (lsq a b).1), sq_nonneg (x.2 - (lsq a b).2)]

/-- The middle of the points. -/
def middle (pts : List (P K)) : P K := ((pts.map Prod.fst).sum / pts.length, (pts.map Prod.snd).sum / pts.length)

theorem mem_zip_zipWith (f : P K → P K → K) : ∀ (pts nms : List (P K)) (e : P K × K), e ∈ nms.zip (pts.zipWith f nms) →
    ∃ p, (p, e.1) ∈ pts.zip nms ∧ e.2 = f p e.1 := by
  intro pts
  induction pts with
  | nil => intro nms e he; simp at he
  | cons p pts ih =>
    intro nms e he
    cases nms with
    | nil => simp at he
    | cons n nms =>
      rw [List.zipWith_cons_cons, List.zip_cons_cons, List.mem_cons] at he
      rcases he with rfl | he
      · exact ⟨p, by simp, rfl⟩
      · obtain ⟨p', h1, h2⟩ := ih nms e he
        exact ⟨p', by simp [h1], h2⟩

theorem mem_zip_of (f : P K → P K → K) : ∀ (pts nms : List (P K)) (p n : P K), (p, n) ∈ pts.zip nms → (n, f p n) ∈ nms.zip (pts.zipWith f nms) := by
  intro pts
  induction pts with
  | nil => intro nms p n h; simp at h
  | cons p' pts ih =>
    intro nms p n h
    cases nms with
    | nil => simp at h
    | cons n' nms =>
      rw [List.zip_cons_cons, List.mem_cons] at h
      rw [List.zipWith_cons_cons, List.zip_cons_cons, List.mem_cons]
      rcases h with h | h
      · rw [Prod.mk.injEq] at h
        left; rw [h.1, h.2]
      · exact Or.inr (ih nms p n h)

theorem feature_eq (sqrt : K → K) (lstsq : List (P K) → List K → P K) (s : P K → K) (n : Nat) (c : Q K) (cs : List (P K × P K)) (nms : List (P K))
    (hc : contours s n c = some cs) (h2 : cs ≠ []) (hn : (cs.flatMap fun e => [e.1, e.2]).mapM (deriv sqrt s) = some nms) :
    feature sqrt lstsq s n c = some (some (let pts := cs.flatMap fun e => [e.1, e.2]
      let x := lstsq nms (pts.zipWith (fun p nm => (p.1 - (middle pts).1) * nm.1 + (p.2 - (middle pts).2) * nm.2) nms)
      ((middle pts).1 + x.1, (middle pts).2 + x.2))) := by
  unfold feature
  rw [hc]
  have : 2 ≤ (cs.flatMap fun e => [e.1, e.2]).length := by
    cases cs with
    | nil => exact absurd rfl h2
    | cons e l => simp
  show (if 2 ≤ (cs.flatMap fun e => [e.1, e.2]).length then _ else _) = _
  rw [if_pos this]
  show ((cs.flatMap fun e => [e.1, e.2]).mapM (deriv sqrt s) >>= _) = _
  rw [hn]
  rfl

/-- C348: a corner is found exactly. If all lines through the points on the sides, perpendicular to the normals there, pass through one point, and
not all normals are parallel, that point is the feature. -/
theorem C348_corner (sqrt : K → K) (lstsq : List (P K) → List K → P K) (hl : LeastSq lstsq) (s : P K → K) (n : Nat) (c : Q K)
    (cs : List (P K × P K)) (nms : List (P K)) (hc : contours s n c = some cs) (h2 : cs ≠ [])
    (hn : (cs.flatMap fun e => [e.1, e.2]).mapM (deriv sqrt s) = some nms) (q : P K)
    (hq : ∀ e ∈ (cs.flatMap fun e => [e.1, e.2]).zip nms, (e.1.1 - q.1) * e.2.1 + (e.1.2 - q.2) * e.2.2 = 0)
    (e1 e2 : P K × P K) (he1 : e1 ∈ (cs.flatMap fun e => [e.1, e.2]).zip nms) (he2 : e2 ∈ (cs.flatMap fun e => [e.1, e.2]).zip nms)
    (hind : e1.2.1 * e2.2.2 - e1.2.2 * e2.2.1 ≠ 0) : feature sqrt lstsq s n c = some (some q) := by
  rw [feature_eq sqrt lstsq s n c cs nms hc h2 hn]
  generalize (cs.flatMap fun e => [e.1, e.2]) = pts at *
  simp only
  set f : P K → P K → K := fun p nm => (p.1 - (middle pts).1) * nm.1 + (p.2 - (middle pts).2) * nm.2 with hf
  have hx : resid nms (pts.zipWith f nms) (q.1 - (middle pts).1, q.2 - (middle pts).2) = 0 := by
    apply resid_exact
    intro e he
    obtain ⟨p, hp, hb⟩ := mem_zip_zipWith f pts nms e he
    have := hq _ hp
    simp only at this ⊢
    rw [hb, hf]
    simp only
    linear_combination -this
  have h0 := hl.min nms (pts.zipWith f nms) (q.1 - (middle pts).1, q.2 - (middle pts).2)
  rw [hx] at h0
  have hz := resid_zero _ _ _ h0
  generalize lstsq nms (pts.zipWith f nms) = x at *
  have k1 := hz _ (mem_zip_of f pts nms e1.1 e1.2 he1)
  have k2 := hz _ (mem_zip_of f pts nms e2.1 e2.2 he2)
  have q1 := hq _ he1
  have q2 := hq _ he2
  simp only [hf] at k1 k2
  have u : (e1.2.1 * e2.2.2 - e1.2.2 * e2.2.1) * ((middle pts).1 + x.1 - q.1) = 0 := by
    linear_combination e2.2.2 * k1 - e1.2.2 * k2 + e2.2.2 * q1 - e1.2.2 * q2
  have v : (e1.2.1 * e2.2.2 - e1.2.2 * e2.2.1) * ((middle pts).2 + x.2 - q.2) = 0 := by
    linear_combination e1.2.1 * k2 - e2.2.1 * k1 + e1.2.1 * q2 - e2.2.1 * q1
  have u' := (mul_eq_zero.1 u).resolve_left hind
  have v' := (mul_eq_zero.1 v).resolve_left hind
  congr 2
  ext <;> simp only <;> linarith

/-- Along a straight line the feature is the middle of the points: if all lines pass through the middle, it is the feature. -/
theorem C348_line (sqrt : K → K) (lstsq : List (P K) → List K → P K) (hl : LeastSq lstsq) (s : P K → K) (n : Nat) (c : Q K)
    (cs : List (P K × P K)) (nms : List (P K)) (hc : contours s n c = some cs) (h2 : cs ≠ [])
    (hn : (cs.flatMap fun e => [e.1, e.2]).mapM (deriv sqrt s) = some nms)
    (hq : ∀ e ∈ (cs.flatMap fun e => [e.1, e.2]).zip nms,
      (e.1.1 - (middle (cs.flatMap fun e => [e.1, e.2])).1) * e.2.1 + (e.1.2 - (middle (cs.flatMap fun e => [e.1, e.2])).2) * e.2.2 = 0) :
    feature sqrt lstsq s n c = some (some (middle (cs.flatMap fun e => [e.1, e.2]))) := by
  rw [feature_eq sqrt lstsq s n c cs nms hc h2 hn]
  generalize (cs.flatMap fun e => [e.1, e.2]) = pts at *
  simp only
  set f : P K → P K → K := fun p nm => (p.1 - (middle pts).1) * nm.1 + (p.2 - (middle pts).2) * nm.2 with hf
  have hx : resid nms (pts.zipWith f nms) (0, 0) = 0 := by
    apply resid_exact
    intro e he
    obtain ⟨p, hp, hb⟩ := mem_zip_zipWith f pts nms e he
    have := hq _ hp
    simp only at this ⊢
    rw [hb, hf]
    simp only
    linear_combination -this
  have h0 : 0 ≤ resid nms (pts.zipWith f nms) (lstsq nms (pts.zipWith f nms)) := by
    unfold resid
    apply List.sum_nonneg
    intro y hy
    obtain ⟨e, _, rfl⟩ := List.mem_map.1 hy
    positivity
  have hs := hl.short nms (pts.zipWith f nms) (0, 0) (by rw [hx]; exact h0)
  generalize lstsq nms (pts.zipWith f nms) = x at *
  simp only at hs
  have x1 : x.1 = 0 := by nlinarith [sq_nonneg x.1, sq_nonneg x.2]
  have x2 : x.2 = 0 := by nlinarith [sq_nonneg x.1, sq_nonneg x.2]
  congr 2
  ext
  · show (middle pts).1 + x.1 = _; rw [x1, add_zero]
  · show (middle pts).2 + x.2 = _; rw [x2, add_zero]

/-- A cell without a change of sign has no feature. -/
theorem C348_none (sqrt : K → K) (lstsq : List (P K) → List K → P K) (s : P K → K) (n : Nat) (hn : 2 ≤ n) (c : Q K)
    (h : ∀ e, ¬Crossed s c e) : feature sqrt lstsq s n c = some none := by
  have he : edges s c = [] := by
    cases hc : edges s c with
    | nil => rfl
    | cons e l =>
      have := (C344_sides s c e.1).2 (h e.1)
      rw [List.count_eq_zero, hc] at this
      exact absurd (List.mem_flatMap.2 ⟨e, by simp, by simp⟩) this
  unfold feature
  rw [contours_some s n hn c, he]
  rfl

/-- The solution for two rows by Cramer's rule, for the examples. -/
def cramer (a : List (P ℚ)) (b : List ℚ) : P ℚ :=
  match a, b with
  | [u, v], [r, t] => ((r * v.2 - t * u.2) / (u.1 * v.2 - u.2 * v.1), (u.1 * t - v.1 * r) / (u.1 * v.2 - u.2 * v.1))
  | _, _ => (0, 0)

/-- The corner of a wedge is found. -/
example : feature (fun y : ℚ => if y = 1 / 10000 then 1 / 100 else 0) cramer (fun p => max (4 * p.1 + 3 * p.2 - 4004) (3 * p.1 + 4 * p.2 - 4004)) 2
    ((0, 0), (2048, 2048)) = some (some (572, 572)) := by decide +kernel

/-- The feature need not lie in its cell: here the lines at the two points meet outside. -/
theorem C348_cell_refuted : feature (fun y : ℚ => if y = 1 / 10000 then 1 / 100 else 0) cramer
    (fun p => if 4000 ≤ p.1 + p.2 then 1 else if p.1 < p.2 then -3 * p.1 + 4 * p.2 - 4004 else 4 * p.1 - 3 * p.2 - 4004) 2
    ((0, 0), (2048, 2048)) = some (some (4004, 4004)) := by decide +kernel

end Verif.Dc
