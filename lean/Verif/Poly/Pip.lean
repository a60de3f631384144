import Verif.Poly.Model
import Mathlib.Data.List.Rotate
import Mathlib.Data.List.GetD
import Mathlib.Tactic.Linarith
import Mathlib.Tactic.FieldSimp
import Mathlib.Tactic.Ring

/-! Lemmas for the point-in-polygon functions. -/

set_option linter.unusedSectionVars false

namespace Verif.Poly
variable {K : Type} [Field K] [LinearOrder K]

/-- Specification: the edge has a point at height `y` (lower end point excluded) which is not to the left of `x`. -/
def Crosses (x y : K) (e : (K × K) × (K × K)) : Prop :=
  (e.1.2 < y ∨ e.2.2 < y) ∧ (y ≤ e.1.2 ∨ y ≤ e.2.2) ∧
    ∃ t, 0 ≤ t ∧ t ≤ 1 ∧ y = e.1.2 + t * (e.2.2 - e.1.2) ∧ x ≤ e.1.1 + t * (e.2.1 - e.1.1)

section ordered
variable [IsStrictOrderedRing K]

/-- The parameter of the edge at height `y`. -/
theorem param_bounds (a b y : K) (h1 : a < y ∨ b < y) (h2 : y ≤ a ∨ y ≤ b) :
    a ≠ b ∧ 0 ≤ (y - a) / (b - a) ∧ (y - a) / (b - a) ≤ 1 := by
  rcases lt_trichotomy a b with h | h | h
  · have hp : 0 < b - a := sub_pos.mpr h
    have ha : a < y := by rcases h1 with h1 | h1; exacts [h1, lt_trans h h1]
    have hb : y ≤ b := by rcases h2 with h2 | h2; exacts [absurd h2 (not_le.mpr ha), h2]
    exact ⟨ne_of_lt h, div_nonneg (by linarith) (le_of_lt hp), by rw [div_le_one hp]; linarith⟩
  · subst h; rcases h1 with h1 | h1 <;> rcases h2 with h2 | h2 <;> exact absurd h2 (not_le.mpr h1)
  · have hp : b - a < 0 := sub_neg.mpr h
    have hb : b < y := by rcases h1 with h1 | h1; exacts [lt_trans h h1, h1]
    have ha : y ≤ a := by rcases h2 with h2 | h2; exacts [h2, absurd h2 (not_le.mpr hb)]
    exact ⟨ne_of_gt h, div_nonneg_of_nonpos (by linarith) (le_of_lt hp), by rw [div_le_one_of_neg hp]; linarith⟩

theorem crosses_iff (x y : K) (e : (K × K) × (K × K)) :
    Crosses x y e ↔ (y > min e.1.2 e.2.2 ∧ y ≤ max e.1.2 e.2.2) ∧
      x ≤ (y - e.1.2) * (e.2.1 - e.1.1) / (e.2.2 - e.1.2) + e.1.1 := by
  rw [Crosses, gt_iff_lt, min_lt_iff, le_max_iff]
  constructor
  · rintro ⟨h1, h2, t, _, _, h5, h6⟩
    obtain ⟨hne, _, _⟩ := param_bounds _ _ y h1 h2
    have ht : t = (y - e.1.2) / (e.2.2 - e.1.2) := by
      rw [eq_div_iff (sub_ne_zero.mpr (Ne.symm hne))]; linarith
    refine ⟨⟨h1, h2⟩, ?_⟩
    rw [ht] at h6
    have : (y - e.1.2) * (e.2.1 - e.1.1) / (e.2.2 - e.1.2) = (y - e.1.2) / (e.2.2 - e.1.2) * (e.2.1 - e.1.1) := by ring
    rw [this]; linarith
  · rintro ⟨⟨h1, h2⟩, h3⟩
    obtain ⟨hne, h4, h5⟩ := param_bounds _ _ y h1 h2
    refine ⟨h1, h2, (y - e.1.2) / (e.2.2 - e.1.2), h4, h5, ?_, ?_⟩
    · rw [div_mul_cancel₀ _ (sub_ne_zero.mpr (Ne.symm hne))]; ring
    · have : (y - e.1.2) * (e.2.1 - e.1.1) / (e.2.2 - e.1.2) = (y - e.1.2) / (e.2.2 - e.1.2) * (e.2.1 - e.1.1) := by ring
      rw [this] at h3; linarith

instance (x y : K) (e : (K × K) × (K × K)) : Decidable (Crosses x y e) := decidable_of_iff' _ (crosses_iff x y e)

/-- A crossed edge has an end point not to the left of `x`. -/
theorem crosses_x (x y : K) (e : (K × K) × (K × K)) (h : Crosses x y e) : x ≤ max e.1.1 e.2.1 := by
  obtain ⟨_, _, t, h3, h4, _, h6⟩ := h
  rw [le_max_iff]
  by_contra hc
  push Not at hc
  obtain ⟨ha, hb⟩ := hc
  have : e.1.1 + t * (e.2.1 - e.1.1) = (1 - t) * e.1.1 + t * e.2.1 := by ring
  rw [this] at h6
  rcases eq_or_lt_of_le h3 with h0 | h0
  · rw [← h0] at h6; simp at h6; linarith
  · have h7 : t * e.2.1 < t * x := mul_lt_mul_of_pos_left hb h0
    have h8 : (1 - t) * e.1.1 ≤ (1 - t) * x := mul_le_mul_of_nonneg_left (le_of_lt ha) (by linarith)
    nlinarith

/-- One turn of the loop toggles `inside` exactly at crossed edges and raises nothing. -/
theorem pipStep_spec (x y : K) (s : PipState K) (p2 : K × K) : ∃ s', pipStep x y s p2 = some s' ∧ s'.p1 = p2 ∧
    s'.inside = (if Crosses x y (s.p1, p2) then !s.inside else s.inside) := by
  rw [pipStep]
  by_cases h1 : y > min s.p1.2 p2.2
  · by_cases h2 : y ≤ max s.p1.2 p2.2
    · by_cases h3 : x ≤ max s.p1.1 p2.1
      · have hne : s.p1.2 ≠ p2.2 := by
          intro h; rw [h, min_self] at h1; rw [h, max_self] at h2; exact absurd h2 (not_le.mpr h1)
        simp only [if_pos h1, if_pos h2, if_pos h3, if_pos hne]
        by_cases h4 : s.p1.1 = p2.1
        · refine ⟨_, if_pos h4, rfl, ?_⟩
          have hc : Crosses x y (s.p1, p2) := by
            rw [crosses_iff]
            refine ⟨⟨h1, h2⟩, ?_⟩
            rw [h4, max_self] at h3
            simp only [h4, sub_self, mul_zero, zero_div, zero_add]; exact h3
          simp [hc]
        · refine ⟨_, if_neg h4, rfl, ?_⟩
          have hc : Crosses x y (s.p1, p2) ↔ x ≤ (y - s.p1.2) * (p2.1 - s.p1.1) / (p2.2 - s.p1.2) + s.p1.1 := by
            rw [crosses_iff]
            exact ⟨fun h => h.2, fun h => ⟨⟨h1, h2⟩, h⟩⟩
          simp [hc]
      · have hc : ¬ Crosses x y (s.p1, p2) := fun h => h3 (crosses_x x y _ h)
        refine ⟨{ s with p1 := p2 }, by simp only [if_pos h1, if_pos h2, if_neg h3], rfl, by simp [hc]⟩
    · have hc : ¬ Crosses x y (s.p1, p2) := fun h => h2 ((crosses_iff x y _).mp h).1.2
      refine ⟨{ s with p1 := p2 }, by simp only [if_pos h1, if_neg h2], rfl, by simp [hc]⟩
  · have hc : ¬ Crosses x y (s.p1, p2) := fun h => h1 ((crosses_iff x y _).mp h).1.1
    refine ⟨{ s with p1 := p2 }, by simp only [if_neg h1], rfl, by simp [hc]⟩

theorem pip_fold (x y : K) : ∀ (l : List (K × K)) (s : PipState K),
    ∃ s', l.foldl (fun (s : Option (PipState K)) p2 => s.bind fun s => pipStep x y s p2) (some s) = some s' ∧
      s'.inside = (s.inside ^^ decide (((s.p1 :: l).zip l).countP (fun e => Crosses x y e) % 2 = 1)) := by
  intro l
  induction l with
  | nil => intro s; exact ⟨s, rfl, by simp⟩
  | cons a l ih =>
    intro s
    obtain ⟨s1, h1, h2, h3⟩ := pipStep_spec x y s a
    obtain ⟨s', h4, h5⟩ := ih s1
    refine ⟨s', by rw [List.foldl_cons]; simp only [Option.bind_some]; rw [h1, h4], ?_⟩
    rw [h5, h3, h2, List.zip_cons_cons, List.countP_cons]
    obtain ⟨k, hk⟩ : ∃ k, ((a :: l).zip l).countP (fun e => decide (Crosses x y e)) = k := ⟨_, rfl⟩
    rw [hk]
    by_cases hc : Crosses x y (s.p1, a)
    · simp only [hc, if_true, decide_true]
      rcases Nat.mod_two_eq_zero_or_one k with h | h
      · rw [show (k + 1) % 2 = 1 by omega, h]; cases s.inside <;> rfl
      · rw [show (k + 1) % 2 = 0 by omega, h]; cases s.inside <;> rfl
    · simp [hc]

theorem map_range_mod (p0 : K × K) (rest : List (K × K)) :
    (List.range ((p0 :: rest).length + 1)).map (fun i => (p0 :: rest).getD (i % (p0 :: rest).length) p0) = p0 :: rest ++ [p0] := by
  apply List.ext_getElem
  · simp
  · intro i h1 h2
    simp only [List.getElem_map, List.getElem_range]
    simp only [List.length_map, List.length_range] at h1
    rcases Nat.lt_or_ge i (p0 :: rest).length with h | h
    · rw [Nat.mod_eq_of_lt h, List.getElem_append_left h, List.getD_eq_getElem _ _ h]
    · have : i = (p0 :: rest).length := by omega
      subst this
      rw [Nat.mod_self, List.getElem_append_right (le_refl _)]
      simp

/-- The edges of a polygon: each vertex with the next one, cyclically. -/
theorem edges_eq (poly : List (K × K)) : edges poly = poly.zip (poly.rotate 1) := by
  cases poly with
  | nil => rfl
  | cons p0 rest =>
    rw [edges]
    apply List.ext_getElem
    · simp
    · intro i h1 h2
      simp only [List.length_map, List.length_range] at h1
      simp only [List.getElem_map, List.getElem_range, List.getElem_zip, List.getElem_rotate]
      rw [List.getD_eq_getElem _ _ h1, List.getD_eq_getElem _ _ (Nat.mod_lt _ (by simp))]

theorem plain_spec (q : K × K) (poly : List (K × K)) (h : poly ≠ []) :
    isPointInPolygon q poly = some (decide ((poly.zip (poly.rotate 1)).countP (fun e => Crosses q.1 q.2 e) % 2 = 1)) := by
  cases poly with
  | nil => exact absurd rfl h
  | cons p0 rest =>
    rw [isPointInPolygon]
    have e : (List.range ((p0 :: rest).length + 1)).foldl (fun (s : Option (PipState K)) i =>
        s.bind fun s => pipStep q.1 q.2 s ((p0 :: rest).getD (i % (p0 :: rest).length) p0))
        (some { inside := false, p1 := p0, xinters := none }) =
        (p0 :: rest ++ [p0]).foldl (fun (s : Option (PipState K)) p2 => s.bind fun s => pipStep q.1 q.2 s p2)
          (some { inside := false, p1 := p0, xinters := none }) := by
      rw [← map_range_mod p0 rest, List.foldl_map]
    rw [e]
    obtain ⟨s', h1, h2⟩ := pip_fold q.1 q.2 (p0 :: rest ++ [p0]) { inside := false, p1 := p0, xinters := none }
    rw [h1, Option.map_some, h2]
    have hz : (p0 :: (p0 :: rest ++ [p0])).zip (p0 :: rest ++ [p0]) = (p0, p0) :: (p0 :: rest).zip ((p0 :: rest).rotate 1) := by
      rw [List.cons_append, List.zip_cons_cons, List.rotate_cons_succ, List.rotate_zero]
      congr 1
      have : (p0 :: (rest ++ [p0])) = (p0 :: rest) ++ [p0] := rfl
      rw [this]
      have h2 : rest ++ [p0] = (rest ++ [p0]) ++ [] := by simp
      conv_lhs => rw [h2]
      rw [List.zip_append (by simp)]
      simp
    have hd : ¬ Crosses q.1 q.2 (p0, p0) := by
      rintro ⟨h1, h2, _⟩
      rcases h1 with h1 | h1 <;> rcases h2 with h2 | h2 <;> exact absurd h2 (not_le.mpr h1)
    dsimp only
    rw [hz, List.countP_cons]
    simp [hd]

/-! ### The tree -/

/-- Box containment as far as the ray test needs it. -/
def Box.Le (a b : Box K) : Prop := b.ymin ≤ a.ymin ∧ a.ymax ≤ b.ymax ∧ a.xmax ≤ b.xmax

theorem Box.Le.trans {a b c : Box K} (h1 : a.Le b) (h2 : b.Le c) : a.Le c :=
  ⟨le_trans h2.1 h1.1, le_trans h1.2.1 h2.2.1, le_trans h1.2.2 h2.2.2⟩

theorem Box.le_union_left (a b : Box K) : a.Le (a.union b) := ⟨min_le_left _ _, le_max_left _ _, le_max_left _ _⟩
theorem Box.le_union_right (a b : Box K) : b.Le (a.union b) := ⟨min_le_right _ _, le_max_right _ _, le_max_right _ _⟩

theorem crosses_box (x y : K) (e : (K × K) × (K × K)) (b : Box K) (hb : (edgeBox e).Le b) (h : Crosses x y e) :
    b.intersectsRay x y = true := by
  have hx := crosses_x x y e h
  obtain ⟨⟨h1, h2⟩, _⟩ := (crosses_iff x y e).mp h
  obtain ⟨b1, b2, b3⟩ := hb
  simp only [Box.intersectsRay, Bool.and_eq_true, decide_eq_true_eq]
  exact ⟨⟨le_trans b1 (le_of_lt h1), le_trans h2 b2⟩, le_trans hx b3⟩

theorem leaf_count (x y : K) (e : (K × K) × (K × K)) : countRay x y (.leaf (edgeBox e) e) = if Crosses x y e then 1 else 0 := by
  rw [countRay]
  by_cases hc : Crosses x y e
  · have hx := crosses_x x y e hc
    have hb := crosses_box x y e (edgeBox e) ⟨le_refl _, le_refl _, le_refl _⟩ hc
    obtain ⟨⟨h1, h2⟩, h3⟩ := (crosses_iff x y e).mp hc
    have hne : e.1.2 ≠ e.2.2 := by
      intro h; rw [h, min_self] at h1; rw [h, max_self] at h2; exact absurd h2 (not_le.mpr h1)
    rw [hb, if_pos hc, if_neg (by simp), if_pos ⟨h1, h2, hx⟩, if_pos hne, if_pos h3]
  · rw [if_neg hc]
    split
    · rfl
    · split
      · rename_i h
        split
        · split
          · rename_i h3
            exact absurd ((crosses_iff x y e).mpr ⟨⟨h.1, h.2.1⟩, h3⟩) hc
          · rfl
        · rfl
      · rfl

theorem build_spec (x y : K) : ∀ (fuel : Nat) (objs : List (Box K × ((K × K) × (K × K)))), objs ≠ [] → objs.length ≤ fuel →
    (∀ o ∈ objs, o.1 = edgeBox o.2) → ∃ t, buildRec fuel objs = some t ∧ (∀ o ∈ objs, o.1.Le t.box) ∧
      countRay x y t = objs.countP (fun o => Crosses x y o.2) := by
  intro fuel
  induction fuel with
  | zero =>
    intro objs h1 h2
    exact absurd (List.length_eq_zero_iff.mp (by omega)) h1
  | succ fuel ih =>
    intro objs h1 h2 h3
    match objs, h1, h2, h3 with
    | [o], _, _, h3 =>
      refine ⟨.leaf o.1 o.2, rfl, fun o' ho' => ?_, ?_⟩
      · rw [List.mem_singleton] at ho'
        subst ho'
        exact ⟨le_refl _, le_refl _, le_refl _⟩
      · rw [h3 o (by simp), leaf_count, List.countP_cons]
        by_cases hc : Crosses x y o.2 <;> simp [hc]
    | a :: b :: l, _, h2, h3 =>
      obtain ⟨S, hS⟩ : ∃ S, (a :: b :: l).insertionSort (fun a b => centre a ≤ centre b) = S := ⟨_, rfl⟩
      have hperm : S.Perm (a :: b :: l) := by rw [← hS]; exact List.perm_insertionSort _ _
      have hlen : S.length = l.length + 2 := by rw [hperm.length_eq]; simp
      simp only [List.length_cons] at h2
      obtain ⟨tl, e1, b1, c1⟩ := ih (S.take (S.length / 2)) (by
          intro h; have := congrArg List.length h; rw [List.length_take, List.length_nil] at this; omega)
        (by rw [List.length_take]; omega)
        (fun o ho => h3 o (hperm.subset (List.mem_of_mem_take ho)))
      obtain ⟨tr, e2, b2, c2⟩ := ih (S.drop (S.length / 2)) (by
          intro h; have := congrArg List.length h; rw [List.length_drop, List.length_nil] at this; omega)
        (by rw [List.length_drop]; omega)
        (fun o ho => h3 o (hperm.subset (List.mem_of_mem_drop ho)))
      have hbuild : buildRec (fuel + 1) (a :: b :: l) = some (.node (tl.box.union tr.box) tl tr) := by
        rw [buildRec]
        · simp only [hS, e1, e2]
        · intro o ho; simp at ho
      have hbox : ∀ o ∈ S, o.1.Le (tl.box.union tr.box) := by
        intro o ho
        rw [← List.take_append_drop (S.length / 2) S, List.mem_append] at ho
        rcases ho with ho | ho
        · exact (b1 o ho).trans (Box.le_union_left _ _)
        · exact (b2 o ho).trans (Box.le_union_right _ _)
      refine ⟨_, hbuild, fun o ho => hbox o (hperm.symm.subset ho), ?_⟩
      have hcount : List.countP (fun o => decide (Crosses x y o.2)) (a :: b :: l) =
          (S.take (S.length / 2)).countP (fun o => Crosses x y o.2) + (S.drop (S.length / 2)).countP (fun o => Crosses x y o.2) := by
        rw [← List.countP_append, List.take_append_drop, hperm.countP_eq]
      rw [hcount, countRay]
      by_cases hr : (tl.box.union tr.box).intersectsRay x y = true
      · rw [hr, if_neg (by simp), c1, c2]
      · have h0 : S.countP (fun o => decide (Crosses x y o.2)) = 0 := by
          rw [List.countP_eq_zero]
          intro o ho hc
          have hb := hbox o ho
          rw [h3 o (hperm.subset ho)] at hb
          exact hr (crosses_box x y o.2 _ hb (of_decide_eq_true hc))
        rw [← hcount, ← hperm.countP_eq, h0]
        simp [hr]

end ordered
end Verif.Poly
