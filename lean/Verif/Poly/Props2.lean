import Verif.Poly.Props

/-! # C23: Sutherland-Hodgman clipping -/

set_option linter.unusedSectionVars false

namespace Verif.Poly
variable {K : Type} [Field K] [LinearOrder K]

/-- Specification: signed side of the point `p` with respect to the directed line from `a` to `b` (positive: left). -/
def side (a b p : K × K) : K := (b.1 - a.1) * (p.2 - a.2) - (b.2 - a.2) * (p.1 - a.1)

/-- The point of the segment `s`, `e` with parameter `t`. -/
def lerp (s e : K × K) (t : K) : K × K := (s.1 + t * (e.1 - s.1), s.2 + t * (e.2 - s.2))

section ordered
variable [IsStrictOrderedRing K]

theorem inside_iff (a b p : K × K) : clipInside a b p = true ↔ 0 < side a b p := by
  rw [clipInside, decide_eq_true_iff, side, sub_pos, gt_iff_lt]

/-- The computed intersection is the point of the segment on the clip line. -/
theorem clipPoint_eq (a b s e : K × K) (h : side a b s ≠ side a b e) :
    clipPoint a b s e = lerp s e (side a b s / (side a b s - side a b e)) := by
  have hd : side a b s - side a b e ≠ 0 := sub_ne_zero.mpr h
  have hden : (a.1 - b.1) * (s.2 - e.2) - (a.2 - b.2) * (s.1 - e.1) = -(side a b s - side a b e) := by
    simp only [side]; ring
  rw [clipPoint, lerp]
  simp only [hden]
  refine Prod.ext ?_ ?_
  · dsimp only
    field_simp
    simp only [side]
    ring
  · dsimp only
    field_simp
    simp only [side]
    ring

theorem side_lerp (a b s e : K × K) (t : K) : side a b (lerp s e t) = side a b s + t * (side a b e - side a b s) := by
  simp only [side, lerp]; ring

theorem cut_param (x y : K) (h : (0 < x ∧ ¬ 0 < y) ∨ (0 < y ∧ ¬ 0 < x)) :
    x ≠ y ∧ 0 ≤ x / (x - y) ∧ x / (x - y) ≤ 1 := by
  rcases h with ⟨h1, h2⟩ | ⟨h1, h2⟩
  · have hp : 0 < x - y := by linarith [not_lt.mp h2]
    exact ⟨by intro h; rw [h] at h1; exact h2 h1, div_nonneg (le_of_lt h1) (le_of_lt hp), by
      rw [div_le_one hp]; linarith [not_lt.mp h2]⟩
  · have hp : x - y < 0 := by linarith [not_lt.mp h2]
    exact ⟨by intro h; rw [h] at h2; exact h2 h1, div_nonneg_of_nonpos (not_lt.mp h2) (le_of_lt hp), by
      rw [div_le_one_of_neg hp]; linarith⟩

/-- One clip edge: the output consists of input vertices strictly inside and of points of the sides on the clip line. -/
theorem clipEdge_mem (a b : K × K) : ∀ (l : List (K × K)) (s p : K × K), p ∈ clipEdge a b s l →
    (p ∈ l ∧ 0 < side a b p) ∨
    ∃ x y t, x ∈ s :: l ∧ y ∈ l ∧ 0 ≤ t ∧ t ≤ 1 ∧ p = lerp x y t ∧ side a b p = 0 := by
  intro l
  induction l with
  | nil => intro s p h; cases h
  | cons e l ih =>
    intro s p h
    have cutCase : ((0 < side a b s ∧ ¬ 0 < side a b e) ∨ (0 < side a b e ∧ ¬ 0 < side a b s)) → p = clipPoint a b s e →
        ∃ x y t, x ∈ s :: e :: l ∧ y ∈ e :: l ∧ 0 ≤ t ∧ t ≤ 1 ∧ p = lerp x y t ∧ side a b p = 0 := by
      intro hs hp
      obtain ⟨h1, h2, h3⟩ := cut_param _ _ hs
      refine ⟨s, e, _, by simp, by simp, h2, h3, by rw [hp]; exact clipPoint_eq a b s e h1, ?_⟩
      rw [hp, clipPoint_eq a b s e h1, side_lerp]
      have hd : side a b s - side a b e ≠ 0 := sub_ne_zero.mpr h1
      field_simp
      ring
    rw [clipEdge, List.mem_append] at h
    rcases h with h | h
    · by_cases he : clipInside a b e = true
      · rw [if_pos he, List.mem_append] at h
        rcases h with h | h
        · by_cases hs : clipInside a b s = true
          · rw [hs] at h; simp at h
          · have hs' : clipInside a b s = false := by simpa using hs
            rw [hs'] at h
            simp only [Bool.not_false, if_true, List.mem_singleton] at h
            exact Or.inr (cutCase (Or.inr ⟨(inside_iff a b e).mp he, fun h' => hs ((inside_iff a b s).mpr h')⟩) h)
        · rw [List.mem_singleton] at h
          subst h
          exact Or.inl ⟨by simp, (inside_iff a b p).mp he⟩
      · rw [if_neg he] at h
        by_cases hs : clipInside a b s = true
        · rw [if_pos hs, List.mem_singleton] at h
          exact Or.inr (cutCase (Or.inl ⟨(inside_iff a b s).mp hs, fun h' => he ((inside_iff a b e).mpr h')⟩) h)
        · rw [if_neg hs] at h; cases h
    · rcases ih e p h with h | ⟨x, y, t, h1, h2, h3⟩
      · exact Or.inl ⟨List.mem_cons_of_mem _ h.1, h.2⟩
      · exact Or.inr ⟨x, y, t, List.mem_cons_of_mem _ h1, List.mem_cons_of_mem _ h2, h3⟩

/-- Vertices strictly inside the current half-plane are kept. -/
theorem clipEdge_keeps (a b : K × K) : ∀ (l : List (K × K)) (s p : K × K), p ∈ l → 0 < side a b p → p ∈ clipEdge a b s l := by
  intro l
  induction l with
  | nil => intro s p h; cases h
  | cons e l ih =>
    intro s p h hp
    rw [clipEdge, List.mem_append]
    rcases List.mem_cons.mp h with h | h
    · subst h
      left
      rw [if_pos ((inside_iff a b p).mpr hp)]
      simp
    · exact Or.inr (ih e p h hp)

theorem clipEdge_all (a b : K × K) : ∀ (l : List (K × K)) (s : K × K), (∀ p ∈ s :: l, 0 < side a b p) → clipEdge a b s l = l := by
  intro l
  induction l with
  | nil => intro s _; rfl
  | cons e l ih =>
    intro s h
    rw [clipEdge, if_pos ((inside_iff a b e).mpr (h e (by simp))), (inside_iff a b s).mpr (h s (by simp)),
      ih e (fun p hp => h p (List.mem_cons_of_mem _ hp))]
    simp

/-- A property of points that holds along a segment when it holds at its ends. -/
def Convexly (C : K × K → Prop) : Prop := ∀ x y t, C x → C y → 0 ≤ t → t ≤ 1 → C (lerp x y t)

theorem side_convexly (a b : K × K) : Convexly (fun p => 0 ≤ side a b p) := by
  intro x y t hx hy h0 h1
  show 0 ≤ side a b (lerp x y t)
  rw [side_lerp]
  nlinarith [mul_nonneg h0 hy, mul_nonneg (sub_nonneg.mpr h1) hx]

theorem clipLoop_inv (C : K × K → Prop) (hC : Convexly C) : ∀ (cs : List (K × K)) (cp1 : K × K) (out res : List (K × K)),
    (∀ p ∈ out, C p) → clipLoop cp1 out cs = some res →
    ∀ p ∈ res, C p ∧ ∀ e ∈ (cp1 :: cs).zip cs, 0 ≤ side e.1 e.2 p := by
  intro cs
  induction cs generalizing C with
  | nil =>
    intro cp1 out res h1 h2 p hp
    rw [clipLoop, Option.some.injEq] at h2
    subst h2
    exact ⟨h1 p hp, fun e he => by simp at he⟩
  | cons cp2 cs ih =>
    intro cp1 out res h1 h2 p hp
    rw [clipLoop] at h2
    cases hl : out.getLast? with
    | none => rw [hl] at h2; cases h2
    | some s =>
      rw [hl] at h2
      have hs : s ∈ out := List.mem_of_getLast? hl
      have hnew : ∀ p ∈ clipEdge cp1 cp2 s out, C p ∧ 0 ≤ side cp1 cp2 p := by
        intro p hp
        rcases clipEdge_mem cp1 cp2 out s p hp with ⟨ha, hb⟩ | ⟨x, y, t, hx, hy, h3, h4, h5, h6⟩
        · exact ⟨h1 p ha, le_of_lt hb⟩
        · have hx' : x ∈ out := by
            rcases List.mem_cons.mp hx with h | h
            · rw [h]; exact hs
            · exact h
          exact ⟨by rw [h5]; exact hC x y t (h1 x hx') (h1 y hy) h3 h4, le_of_eq h6.symm⟩
      have := ih (fun p => C p ∧ 0 ≤ side cp1 cp2 p)
        (fun x y t hx hy h0 h1 => ⟨hC x y t hx.1 hy.1 h0 h1, side_convexly cp1 cp2 x y t hx.2 hy.2 h0 h1⟩) cp2 _ res hnew h2 p hp
      refine ⟨this.1.1, fun e he => ?_⟩
      rw [List.zip_cons_cons, List.mem_cons] at he
      rcases he with he | he
      · rw [he]; exact this.1.2
      · exact this.2 e he

theorem clipLoop_keeps : ∀ (cs : List (K × K)) (cp1 : K × K) (out res : List (K × K)),
    clipLoop cp1 out cs = some res → ∀ p ∈ out, (∀ e ∈ (cp1 :: cs).zip cs, 0 < side e.1 e.2 p) → p ∈ res := by
  intro cs
  induction cs with
  | nil =>
    intro cp1 out res h p hp _
    rw [clipLoop, Option.some.injEq] at h
    rw [← h]; exact hp
  | cons cp2 cs ih =>
    intro cp1 out res h p hp hin
    rw [clipLoop] at h
    cases hl : out.getLast? with
    | none => rw [hl] at h; cases h
    | some s =>
      rw [hl] at h
      rw [List.zip_cons_cons] at hin
      exact ih cp2 _ res h p (clipEdge_keeps cp1 cp2 out s p hp (hin (cp1, cp2) (by simp)))
        (fun e he => hin e (List.mem_cons_of_mem _ he))

theorem clipLoop_all : ∀ (cs : List (K × K)) (cp1 : K × K) (out : List (K × K)), out ≠ [] →
    (∀ p ∈ out, ∀ e ∈ (cp1 :: cs).zip cs, 0 < side e.1 e.2 p) → clipLoop cp1 out cs = some out := by
  intro cs
  induction cs with
  | nil => intro _ _ _ _; rfl
  | cons cp2 cs ih =>
    intro cp1 out hne hin
    obtain ⟨s, hl⟩ : ∃ s, out.getLast? = some s := ⟨_, List.getLast?_eq_some_getLast hne⟩
    have hs : s ∈ out := List.mem_of_getLast? hl
    rw [clipLoop, hl]
    have : clipEdge cp1 cp2 s out = out := clipEdge_all cp1 cp2 out s (fun p hp => by
      have hp' : p ∈ out := by
        rcases List.mem_cons.mp hp with h | h
        · rw [h]; exact hs
        · exact h
      exact hin p hp' (cp1, cp2) (by simp))
    simp only [this]
    exact ih cp2 out hne (fun p hp e he => hin p hp e (by rw [List.zip_cons_cons]; exact List.mem_cons_of_mem _ he))

/-- The directed sides of a polygon seen from its last vertex are its cyclic edges. -/
theorem cyclic_edges (poly : List (K × K)) (last : K × K) (h : poly.getLast? = some last) (e : (K × K) × (K × K)) :
    e ∈ (last :: poly).zip poly ↔ e ∈ poly.zip (poly.rotate 1) := by
  cases poly with
  | nil => cases h
  | cons a l =>
    have hr : (last :: (a :: l)).zip (a :: l) = ((last :: (a :: l).dropLast)).zip (a :: l) := by
      have hd : a :: l = (a :: l).dropLast ++ [last] := by
        rw [List.getLast?_eq_some_getLast (List.cons_ne_nil a l), Option.some.injEq] at h
        rw [← h]; exact (List.dropLast_append_getLast _).symm
      have h2 : a :: l = (a :: l) ++ [] := by simp
      conv_lhs => rw [h2]
      rw [show (last :: ((a :: l) ++ [])) = (last :: (a :: l).dropLast) ++ [last] by
        rw [List.append_nil, List.cons_append, ← hd], List.zip_append (by simp)]
      simp
    have hrot : (last :: (a :: l).dropLast).rotate 1 = a :: l := by
      rw [List.rotate_cons_succ, List.rotate_zero]
      rw [List.getLast?_eq_some_getLast (List.cons_ne_nil a l), Option.some.injEq] at h
      rw [← h]; exact List.dropLast_append_getLast _
    rw [hr, ← List.mem_rotate (n := 1) (l := (last :: (a :: l).dropLast).zip (a :: l)), List.zip,
      List.zipWith_rotate_distrib _ _ _ _ (by simp), hrot]

/-- **C23, soundness, partial.** Every vertex returned by `clip` lies in the closed half-plane to the left of every directed
side of the clip polygon, and in every convex set containing the subject. Missing: that `clip` always returns, which is false
(below). -/
theorem C23_clip_inside_partial (subject clipPoly res : List (K × K)) (h : clip subject clipPoly = some res) :
    ∀ p ∈ res, (∀ e ∈ clipPoly.zip (clipPoly.rotate 1), 0 ≤ side e.1 e.2 p) ∧
      ∀ C, Convexly C → (∀ v ∈ subject, C v) → C p := by
  rw [clip] at h
  cases hl : clipPoly.getLast? with
  | none => rw [hl] at h; cases h
  | some cp1 =>
    rw [hl] at h
    intro p hp
    refine ⟨fun e he => ?_, fun C hC hS => (clipLoop_inv C hC clipPoly cp1 subject res hS h p hp).1⟩
    exact (clipLoop_inv (fun _ => True) (fun _ _ _ _ _ _ _ => trivial) clipPoly cp1 subject res (fun _ _ => trivial) h p hp).2 e
      ((cyclic_edges clipPoly cp1 hl e).mpr he)

/-- **C23, nothing lost.** Subject vertices strictly inside all half-planes are in the result; if all of them are, the subject
comes back unchanged. -/
theorem C23_clip_keeps (subject clipPoly : List (K × K)) (hc : clipPoly ≠ []) :
    (∀ res, clip subject clipPoly = some res → ∀ p ∈ subject,
      (∀ e ∈ clipPoly.zip (clipPoly.rotate 1), 0 < side e.1 e.2 p) → p ∈ res) ∧
    (subject ≠ [] → (∀ p ∈ subject, ∀ e ∈ clipPoly.zip (clipPoly.rotate 1), 0 < side e.1 e.2 p) →
      clip subject clipPoly = some subject) := by
  obtain ⟨cp1, hl⟩ : ∃ s, clipPoly.getLast? = some s := ⟨_, List.getLast?_eq_some_getLast hc⟩
  constructor
  · intro res h p hp hin
    rw [clip, hl] at h
    exact clipLoop_keeps clipPoly cp1 subject res h p hp (fun e he => hin e ((cyclic_edges clipPoly cp1 hl e).mp he))
  · intro hs hin
    rw [clip, hl]
    exact clipLoop_all clipPoly cp1 subject hs (fun p hp e he => hin p hp e ((cyclic_edges clipPoly cp1 hl e).mp he))

end ordered

/-- A square and a triangle (examples). -/
def square : List (ℚ × ℚ) := [(0, 0), (2, 0), (2, 2), (0, 2)]

example : clip [(1, 1), (3, 1), (1, 3)] square = some [(1, 2), (1, 1), (2, 1), (2, 2)] ∧
    (∀ e ∈ square.zip (square.rotate 1), 0 < side e.1 e.2 (1, 1)) ∧
    clip [(1, 1), (3 / 2, 1), (1, 3 / 2)] square = some [(1, 1), (3 / 2, 1), (1, 3 / 2)] := by
  refine ⟨?_, ?_, ?_⟩ <;> decide +kernel

/-- **C23 refuted.** `clip` does not always return a polygon: when a clip edge removes everything before the last edge is
processed, `inputList[-1]` raises `IndexError` (disjoint polygons). -/
theorem C23_clip_returns_refuted : ¬ ∀ (subject clipPoly : List (ℚ × ℚ)), subject ≠ [] → clipPoly ≠ [] →
    (clip subject clipPoly).isSome = true := by
  intro h
  have := h [(5, 0), (6, 0), (5, 1)] square (by decide) (by decide)
  revert this
  decide +kernel

end Verif.Poly
