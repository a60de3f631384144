import Verif.Dc.Props3

/-! # C349–C350: the edges of the dual contour, and walking through trees -/

set_option linter.unusedSectionVars false

namespace Verif.Dc
open Verif.ImplTree

variable {K : Type} [Field K] [LinearOrder K] [IsStrictOrderedRing K]

theorem placed_collapse (vals : Q K → List K) (t : T 4 (Q K)) : ∀ q, Placed t q → Placed (collapse vals t) q := by
  induction t with
  | leaf d => intro q h; unfold collapse; split_ifs <;> exact h
  | empty t ih => intro q h; exact h
  | full t ih => intro q h; exact h
  | root ch ih =>
    intro q h
    unfold collapse
    split_ifs
    · exact h
    · exact h
    · exact fun j => ih j _ (h j)

/-- A cell that is not degenerate. -/
def Ok (q : Q K) : Prop := q.1.1 < q.2.1 ∧ q.1.2 < q.2.2

/-- One cell lies in another. -/
def Sub (c q : Q K) : Prop := q.1.1 ≤ c.1.1 ∧ c.2.1 ≤ q.2.1 ∧ q.1.2 ≤ c.1.2 ∧ c.2.2 ≤ q.2.2

theorem ok_split (q : Q K) (h : Ok q) (j : Fin 4) : Ok (quadSplit q j) := split_valid q h.1 h.2 j

theorem sub_split (q : Q K) (h : Ok q) (j : Fin 4) : Sub (quadSplit q j) q := by
  obtain ⟨⟨x0, y0⟩, ⟨x1, y1⟩⟩ := q
  obtain ⟨hx, hy⟩ := h
  simp only at hx hy
  unfold Sub
  fin_cases j <;> simp only [quadSplit] <;> refine ⟨?_, ?_, ?_, ?_⟩ <;> simp <;> linarith

theorem open_sub (t : T 4 (Q K)) : ∀ q, Placed t q → Ok q → ∀ c ∈ t.open, Ok c ∧ Sub c q := by
  induction t with
  | leaf d =>
    intro q h hq c hc
    have hc' : c = d := by simpa [T.open] using hc
    rw [hc', show d = q from h]
    exact ⟨hq, le_refl _, le_refl _, le_refl _, le_refl _⟩
  | empty t _ => intro q _ _ c hc; simp [T.open] at hc
  | full t _ => intro q _ _ c hc; simp [T.open] at hc
  | root ch ih =>
    intro q h hq c hc
    obtain ⟨j, _, hj⟩ := List.mem_flatMap.1 hc
    obtain ⟨h1, h2⟩ := ih j _ (h j) (ok_split q hq j) c hj
    have h3 := sub_split q hq j
    exact ⟨h1, h3.1.trans h2.1, h2.2.1.trans h3.2.1, h3.2.2.1.trans h2.2.2.1, h2.2.2.2.trans h3.2.2.2⟩

/-- Two cells share a piece of a vertical side, the first on the left. -/
def Beside (c d : Q K) : Prop := c.2.1 = d.1.1 ∧ c.1.2 < d.2.2 ∧ d.1.2 < c.2.2

/-- Two cells share a piece of a horizontal side, the first below. -/
def Below (c d : Q K) : Prop := c.2.2 = d.1.2 ∧ c.1.1 < d.2.1 ∧ d.1.1 < c.2.1

theorem mem_open_root (ch : Fin 4 → T 4 (Q K)) (c : Q K) :
    c ∈ (T.root ch).open ↔ c ∈ (ch 0).open ∨ c ∈ (ch 1).open ∨ c ∈ (ch 2).open ∨ c ∈ (ch 3).open := by
  show c ∈ (List.finRange 4).flatMap (fun i => (ch i).open) ↔ _
  rw [List.mem_flatMap]
  constructor
  · rintro ⟨j, _, hj⟩
    fin_cases j
    · exact Or.inl hj
    · exact Or.inr (Or.inl hj)
    · exact Or.inr (Or.inr (Or.inl hj))
    · exact Or.inr (Or.inr (Or.inr hj))
  · rintro (h | h | h | h)
    · exact ⟨0, by simp, h⟩
    · exact ⟨1, by simp, h⟩
    · exact ⟨2, by simp, h⟩
    · exact ⟨3, by simp, h⟩

theorem procHLeaf_iff (c : Q K) (t : T 4 (Q K)) : ∀ q, Placed t q → Ok q → c.2.1 = q.1.1 → c.1.2 ≤ q.1.2 → q.2.2 ≤ c.2.2 →
    ∀ e, e ∈ procHLeaf c t ↔ e.1 = c ∧ e.2 ∈ t.open ∧ Beside e.1 e.2 := by
  induction t with
  | leaf d =>
    intro q h hq h1 h2 h3 e
    have hd : d = q := h
    subst hd
    simp only [procHLeaf, T.open, List.mem_singleton]
    constructor
    · rintro rfl
      exact ⟨rfl, rfl, h1, lt_of_le_of_lt h2 hq.2, lt_of_lt_of_le hq.2 h3⟩
    · rintro ⟨e1, e2, _⟩
      exact Prod.ext e1 e2
  | empty t _ => intro q _ _ _ _ _ e; simp [procHLeaf, T.open]
  | full t _ => intro q _ _ _ _ _ e; simp [procHLeaf, T.open]
  | root ch ih =>
    intro q h hq h1 h2 h3 e
    have o := ok_split q hq
    have s := sub_split q hq
    have i0 := ih 0 _ (h 0) (o 0) h1 h2 ((s 0).2.2.2.trans h3) e
    have i2 := ih 2 _ (h 2) (o 2) h1 (h2.trans (s 2).2.2.1) h3 e
    simp only [procHLeaf, List.mem_append, i0, i2, mem_open_root]
    constructor
    · rintro (⟨a, b, d⟩ | ⟨a, b, d⟩)
      · exact ⟨a, Or.inl b, d⟩
      · exact ⟨a, Or.inr (Or.inr (Or.inl b)), d⟩
    · rintro ⟨a, b, d⟩
      have far : ∀ j : Fin 4, q.1.1 < (quadSplit q j).1.1 → e.2 ∈ (ch j).open → False := by
        intro j hj hm
        have := (open_sub (ch j) _ (h j) (o j) e.2 hm).2.1
        have hb := d.1
        rw [a, h1] at hb
        exact absurd (lt_of_lt_of_le hj this) (by rw [← hb]; exact lt_irrefl _)
      have hx : q.1.1 < (q.1.1 + q.2.1) / 2 := by have := hq.1; linarith
      rcases b with b | b | b | b
      · exact Or.inl ⟨a, b, d⟩
      · exact absurd b (far 1 hx)
      · exact Or.inr ⟨a, b, d⟩
      · exact absurd b (far 3 hx)

/-- C349: `edgeProcH` joins exactly the cells on both sides of the common line that share a piece of it. -/
theorem C349_horizontal (t : T 4 (Q K)) : ∀ t' q q', Placed t q → Placed t' q' → Ok q → Ok q' → q.2.1 = q'.1.1 →
    (q.1.2 = q'.1.2 ∧ q.2.2 = q'.2.2 ∨ (∃ d, t' = .leaf d) ∧ q'.1.2 ≤ q.1.2 ∧ q.2.2 ≤ q'.2.2) →
    ∀ e, e ∈ procH t t' ↔ e.1 ∈ t.open ∧ e.2 ∈ t'.open ∧ Beside e.1 e.2 := by
  induction t with
  | leaf c =>
    intro t' q q' h h' hq hq' hx hy e
    have hc : c = q := h
    subst hc
    have key : procH (.leaf c) t' = procHLeaf c t' := by cases t' <;> rfl
    rw [key]
    rcases hy with ⟨y1, y2⟩ | ⟨⟨d, rfl⟩, y1, y2⟩
    · rw [procHLeaf_iff c t' q' h' hq' hx (le_of_eq y1) (le_of_eq y2.symm) e]
      simp [T.open]
    · have hd : d = q' := h'
      subst hd
      simp only [procHLeaf, T.open, List.mem_singleton]
      constructor
      · rintro rfl
        exact ⟨rfl, rfl, hx, lt_of_lt_of_le hq.2 y2, lt_of_le_of_lt y1 hq.2⟩
      · rintro ⟨a, b, _⟩
        exact Prod.ext a b
  | empty t _ => intro t' q q' _ _ _ _ _ _ e; cases t' <;> simp [procH, T.open]
  | full t _ => intro t' q q' _ _ _ _ _ _ e; cases t' <;> simp [procH, T.open]
  | root ch ih =>
    intro t' q q' h h' hq hq' hx hy e
    have o := ok_split q hq
    have s := sub_split q hq
    have hm : (q.1.1 + q.2.1) / 2 < q.2.1 := by have := hq.1; linarith
    have far : ∀ j : Fin 4, (quadSplit q j).2.1 < q.2.1 → e.1 ∈ (ch j).open → e.2 ∈ t'.open → Beside e.1 e.2 → False := by
      intro j hj h1 h2 hb
      have a1 := (open_sub (ch j) _ (h j) (o j) e.1 h1).2.2.1
      have a2 := (open_sub t' _ h' hq' e.2 h2).2.1
      have := hb.1
      linarith
    cases t' with
    | empty t => simp [procH, T.open]
    | full t => simp [procH, T.open]
    | leaf d =>
      have y : q'.1.2 ≤ q.1.2 ∧ q.2.2 ≤ q'.2.2 := by
        rcases hy with ⟨y1, y2⟩ | ⟨_, y⟩
        · exact ⟨le_of_eq y1.symm, le_of_eq y2⟩
        · exact y
      have i1 := ih 1 (.leaf d) _ q' (h 1) h' (o 1) hq' hx (Or.inr ⟨⟨d, rfl⟩, y.1, ((s 1).2.2.2).trans y.2⟩) e
      have i3 := ih 3 (.leaf d) _ q' (h 3) h' (o 3) hq' hx (Or.inr ⟨⟨d, rfl⟩, y.1.trans (s 3).2.2.1, y.2⟩) e
      simp only [procH, List.mem_append, i1, i3, mem_open_root]
      constructor
      · rintro (⟨a, b, c⟩ | ⟨a, b, c⟩)
        · exact ⟨Or.inr (Or.inl a), b, c⟩
        · exact ⟨Or.inr (Or.inr (Or.inr a)), b, c⟩
      · rintro ⟨a | a | a | a, b, c⟩
        · exact absurd c (far 0 hm a b)
        · exact Or.inl ⟨a, b, c⟩
        · exact absurd c (far 2 hm a b)
        · exact Or.inr ⟨a, b, c⟩
    | root ch' =>
      have y : q.1.2 = q'.1.2 ∧ q.2.2 = q'.2.2 := by
        rcases hy with y | ⟨⟨d, hd⟩, _⟩
        · exact y
        · exact absurd hd (by simp)
      have o' := ok_split q' hq'
      have ym : (q.1.2 + q.2.2) / 2 = (q'.1.2 + q'.2.2) / 2 := by rw [y.1, y.2]
      have i1 := ih 1 (ch' 0) _ _ (h 1) (h' 0) (o 1) (o' 0) hx (Or.inl ⟨y.1, ym⟩) e
      have i3 := ih 3 (ch' 2) _ _ (h 3) (h' 2) (o 3) (o' 2) hx (Or.inl ⟨ym, y.2⟩) e
      have far' : ∀ j : Fin 4, q'.1.1 < (quadSplit q' j).1.1 → e.1 ∈ (T.root ch).open → e.2 ∈ (ch' j).open → Beside e.1 e.2 → False := by
        intro j hj h1 h2 hb
        have a1 := (open_sub (T.root ch) _ h hq e.1 h1).2.2.1
        have a2 := (open_sub (ch' j) _ (h' j) (o' j) e.2 h2).2.1
        have := hb.1
        linarith
      have hm' : q'.1.1 < (q'.1.1 + q'.2.1) / 2 := by have := hq'.1; linarith
      have cross : e.1 ∈ (ch 1).open → e.2 ∈ (ch' 2).open → Beside e.1 e.2 → False := by
        intro h1 h2 hb
        have a1 : e.1.2.2 ≤ (q.1.2 + q.2.2) / 2 := (open_sub (ch 1) _ (h 1) (o 1) e.1 h1).2.2.2.2
        have a2 : (q'.1.2 + q'.2.2) / 2 ≤ e.2.1.2 := (open_sub (ch' 2) _ (h' 2) (o' 2) e.2 h2).2.2.2.1
        have := hb.2.2
        linarith
      have cross' : e.1 ∈ (ch 3).open → e.2 ∈ (ch' 0).open → Beside e.1 e.2 → False := by
        intro h1 h2 hb
        have a1 : (q.1.2 + q.2.2) / 2 ≤ e.1.1.2 := (open_sub (ch 3) _ (h 3) (o 3) e.1 h1).2.2.2.1
        have a2 : e.2.2.2 ≤ (q'.1.2 + q'.2.2) / 2 := (open_sub (ch' 0) _ (h' 0) (o' 0) e.2 h2).2.2.2.2
        have := hb.2.1
        linarith
      have hiff : e ∈ procH (.root ch) (.root ch') ↔ (e.1 ∈ (ch 1).open ∧ e.2 ∈ (ch' 0).open ∧ Beside e.1 e.2) ∨
          (e.1 ∈ (ch 3).open ∧ e.2 ∈ (ch' 2).open ∧ Beside e.1 e.2) := by
        simp only [procH, List.mem_append, i1, i3]
      rw [hiff]
      constructor
      · rintro (⟨a, b, c⟩ | ⟨a, b, c⟩)
        · exact ⟨(mem_open_root ch _).2 (Or.inr (Or.inl a)), (mem_open_root ch' _).2 (Or.inl b), c⟩
        · exact ⟨(mem_open_root ch _).2 (Or.inr (Or.inr (Or.inr a))), (mem_open_root ch' _).2 (Or.inr (Or.inr (Or.inl b))), c⟩
      · rintro ⟨a, b, c⟩
        have nb1 := fun hb => far' 1 hm' a hb c
        have nb3 := fun hb => far' 3 hm' a hb c
        rcases (mem_open_root ch _).1 a with a | a | a | a
        · exact absurd c (far 0 hm a b)
        · rcases (mem_open_root ch' _).1 b with b | b | b | b
          · exact Or.inl ⟨a, b, c⟩
          · exact absurd b nb1
          · exact absurd c (cross a b)
          · exact absurd b nb3
        · exact absurd c (far 2 hm a b)
        · rcases (mem_open_root ch' _).1 b with b | b | b | b
          · exact absurd c (cross' a b)
          · exact absurd b nb1
          · exact Or.inr ⟨a, b, c⟩
          · exact absurd b nb3

/-- `edgeProcV` is right for two leaves. -/
theorem C349_vertical_partial (c d : Q K) : procV (.leaf c) (.leaf d) = [(c, d)] := rfl

theorem procVLeaf_gap (c : Q K) (t : T 4 (Q K)) : ∀ q, Placed t q → Ok q → ∀ e ∈ procVLeaf c t,
    e.1 = c ∧ e.2 ∈ t.open ∧ ((∃ ch, t = .root ch) → q.1.2 < e.2.1.2) := by
  induction t with
  | leaf d =>
    intro q h hq e he
    have : e = (c, d) := by simpa [procVLeaf] using he
    subst this
    exact ⟨rfl, by simp [T.open], fun ⟨ch, hc⟩ => absurd hc (by simp)⟩
  | empty t _ => intro q _ _ e he; simp [procVLeaf] at he
  | full t _ => intro q _ _ e he; simp [procVLeaf] at he
  | root ch ih =>
    intro q h hq e he
    have o := ok_split q hq
    have hm : q.1.2 < (q.1.2 + q.2.2) / 2 := by have := hq.2; linarith
    rcases List.mem_append.1 he with he | he
    · obtain ⟨a, b, _⟩ := ih 2 _ (h 2) (o 2) e he
      exact ⟨a, (mem_open_root ch _).2 (Or.inr (Or.inr (Or.inl b))), fun _ =>
        lt_of_lt_of_le hm (open_sub (ch 2) _ (h 2) (o 2) e.2 b).2.2.2.1⟩
    · obtain ⟨a, b, _⟩ := ih 3 _ (h 3) (o 3) e he
      exact ⟨a, (mem_open_root ch _).2 (Or.inr (Or.inr (Or.inr b))), fun _ =>
        lt_of_lt_of_le hm (open_sub (ch 3) _ (h 3) (o 3) e.2 b).2.2.2.1⟩

theorem procV_mem (t : T 4 (Q K)) : ∀ t' e, e ∈ procV t t' → e.1 ∈ t.open ∧ e.2 ∈ t'.open := by
  have hleaf : ∀ (c : Q K) (t' : T 4 (Q K)), ∀ e ∈ procVLeaf c t', e.1 = c ∧ e.2 ∈ t'.open := by
    intro c t'
    induction t' with
    | leaf d => intro e he; have : e = (c, d) := by simpa [procVLeaf] using he
                subst this; simp [T.open]
    | empty t _ => intro e he; simp [procVLeaf] at he
    | full t _ => intro e he; simp [procVLeaf] at he
    | root ch ih =>
      intro e he
      rcases List.mem_append.1 he with he | he
      · exact ⟨(ih 2 e he).1, (mem_open_root ch _).2 (Or.inr (Or.inr (Or.inl (ih 2 e he).2)))⟩
      · exact ⟨(ih 3 e he).1, (mem_open_root ch _).2 (Or.inr (Or.inr (Or.inr (ih 3 e he).2)))⟩
  induction t with
  | leaf c =>
    intro t' e he
    have key : procV (.leaf c) t' = procVLeaf c t' := by cases t' <;> rfl
    rw [key] at he
    obtain ⟨a, b⟩ := hleaf c t' e he
    exact ⟨by rw [a]; simp [T.open], b⟩
  | empty t _ => intro t' e he; cases t' <;> simp [procV] at he
  | full t _ => intro t' e he; cases t' <;> simp [procV] at he
  | root ch ih =>
    intro t' e he
    cases t' with
    | empty t => simp [procV] at he
    | full t => simp [procV] at he
    | leaf d =>
      rcases List.mem_append.1 he with he | he
      · exact ⟨(mem_open_root ch _).2 (Or.inl (ih 0 _ e he).1), (ih 0 _ e he).2⟩
      · exact ⟨(mem_open_root ch _).2 (Or.inr (Or.inl (ih 1 _ e he).1)), (ih 1 _ e he).2⟩
    | root ch' =>
      rcases List.mem_append.1 he with he | he
      · exact ⟨(mem_open_root ch _).2 (Or.inl (ih 0 _ e he).1), (mem_open_root ch' _).2 (Or.inr (Or.inr (Or.inl (ih 0 _ e he).2)))⟩
      · exact ⟨(mem_open_root ch _).2 (Or.inr (Or.inl (ih 1 _ e he).1)), (mem_open_root ch' _).2 (Or.inr (Or.inr (Or.inr (ih 1 _ e he).2)))⟩

/-- As soon as one of the two trees is divided, `edgeProcV` joins only cells that do not touch: there is a gap between every two of them, and the
cells that share a side are not joined. -/
theorem C349_vertical_refuted (t t' : T 4 (Q K)) (q q' : Q K) (h : Placed t q) (h' : Placed t' q') (hq : Ok q) (hq' : Ok q') (hy : q.2.2 = q'.1.2)
    (hr : (∃ ch, t = .root ch) ∨ ∃ ch, t' = .root ch) : ∀ e ∈ procV t t', e.1.2.2 < e.2.1.2 := by
  intro e he
  have hm := procV_mem t t' e he
  have low := (open_sub t q h hq e.1 hm.1).2.2.2.2
  have up := (open_sub t' q' h' hq' e.2 hm.2).2.2.2.1
  have mid : (q.1.2 + q.2.2) / 2 < q.2.2 := by have := hq.2; linarith
  cases t with
  | empty t => cases t' <;> simp [procV] at he
  | full t => cases t' <;> simp [procV] at he
  | leaf c =>
    have key : procV (.leaf c) t' = procVLeaf c t' := by cases t' <;> rfl
    rw [key] at he
    have hr' : ∃ ch, t' = .root ch := by
      rcases hr with ⟨ch, hc⟩ | hr
      · exact absurd hc (by simp)
      · exact hr
    have := (procVLeaf_gap c t' q' h' hq' e he).2.2 hr'
    linarith
  | root ch =>
    have o := ok_split q hq
    have strict : e.1 ∈ (ch 0).open ∨ e.1 ∈ (ch 1).open → e.1.2.2 < q.2.2 := by
      rintro (h1 | h1)
      · exact lt_of_le_of_lt (open_sub (ch 0) _ (h 0) (o 0) e.1 h1).2.2.2.2 mid
      · exact lt_of_le_of_lt (open_sub (ch 1) _ (h 1) (o 1) e.1 h1).2.2.2.2 mid
    have : e.1 ∈ (ch 0).open ∨ e.1 ∈ (ch 1).open := by
      cases t' with
      | empty t => simp [procV] at he
      | full t => simp [procV] at he
      | leaf d => exact (List.mem_append.1 he).imp (fun a => (procV_mem _ _ e a).1) (fun a => (procV_mem _ _ e a).1)
      | root ch' => exact (List.mem_append.1 he).imp (fun a => (procV_mem _ _ e a).1) (fun a => (procV_mem _ _ e a).1)
    have := strict this
    linarith

/-- The full grid of depth two: of the eight pairs of cells on both sides of the middle line, none is joined, although four pairs touch. -/
example : (procV (buildTree quadSplit 1 (((0, 0), (2, 2)) : Q ℚ)) (buildTree quadSplit 1 ((0, 2), (2, 4)))) =
    [(((0, 0), (1, 1)), ((0, 3), (1, 4))), (((1, 0), (2, 1)), ((1, 3), (2, 4)))] := by decide +kernel

example : (procH (buildTree quadSplit 1 (((0, 0), (2, 2)) : Q ℚ)) (buildTree quadSplit 1 ((2, 0), (4, 2)))) =
    [(((1, 0), (2, 1)), ((2, 0), (3, 1))), (((1, 1), (2, 2)), ((2, 1), (3, 2)))] := by decide +kernel

/-- The pairs do not depend on the shape: four leaves are joined in a ring, whether or not the shape changes its sign on their common sides. -/
theorem C349_ring_refuted {α : Type} (feat : Q K → α) (q : Q K) : dc feat (buildTree quadSplit 1 q) =
    [(feat (quadSplit q 0), feat (quadSplit q 1)), (feat (quadSplit q 2), feat (quadSplit q 3)),
     (feat (quadSplit q 0), feat (quadSplit q 2)), (feat (quadSplit q 1), feat (quadSplit q 3))] := rfl

/-- Two parallel strips: the sides between the left and the right cells are not crossed, and yet the two lines are joined. -/
example : let s : P ℚ → ℚ := fun p => min (p.1 - 1 / 4) (3 / 4 - p.1)
    let q : Q ℚ := ((0, 0), (1, 1))
    (collapse (vals2 s) (buildTree quadSplit 1 q)).open = [quadSplit q 0, quadSplit q 1, quadSplit q 2, quadSplit q 3] ∧
    edges s (quadSplit q 0) = [(.Lower, .Upper)] ∧ edges s (quadSplit q 1) = [(.Upper, .Lower)] := by
  decide +kernel

/-! ## C350 -/

/-- C350: a quantity that adds up over the four parts of a cell adds up over the cells of any tree. -/
theorem C350_fold (m : Q K → K) (hm : ∀ q, m q = m (quadSplit q 0) + m (quadSplit q 1) + m (quadSplit q 2) + m (quadSplit q 3)) (t : T 4 (Q K)) :
    ∀ q, foldTree (fun _ => 0) m m m t q = m q := by
  induction t with
  | leaf d => intro q; rfl
  | empty t _ => intro q; rfl
  | full t _ => intro q; rfl
  | root ch ih =>
    intro q
    simp only [foldTree, ih, zero_add]
    exact (hm q).symm

/-- The area of a cell. -/
def area (q : Q K) : K := (q.2.1 - q.1.1) * (q.2.2 - q.1.2)

/-- So the areas of the empty, the full and the remaining cells add up to the area of the whole. -/
theorem C350_area (t : T 4 (Q K)) (q : Q K) : foldTree (fun _ => 0) area (fun _ => 0) (fun _ => 0) t q + foldTree (fun _ => 0) (fun _ => 0) area (fun _ => 0) t q
    + foldTree (fun _ => 0) (fun _ => 0) (fun _ => 0) area t q = area q := by
  have hm : ∀ q : Q K, area q = area (quadSplit q 0) + area (quadSplit q 1) + area (quadSplit q 2) + area (quadSplit q 3) := by
    intro q
    simp only [area, quadSplit]
    simp
    ring
  rw [← C350_fold area hm t q]
  have : ∀ (t : T 4 (Q K)) q, foldTree (fun _ => 0) area (fun _ => 0) (fun _ => 0) t q + foldTree (fun _ => 0) (fun _ => 0) area (fun _ => 0) t q
      + foldTree (fun _ => 0) (fun _ => 0) (fun _ => 0) area t q = foldTree (fun _ => 0) area area area t q := by
    intro t
    induction t with
    | leaf d => intro q; simp [foldTree]
    | empty t _ => intro q; simp [foldTree]
    | full t _ => intro q; simp [foldTree]
    | root ch ih =>
      intro q
      simp only [foldTree, ← ih]
      ring
  exact this t q

/-- The cells of a tree that are not divided, in order: `some true` for full, `some false` for empty, `none` for a leaf. -/
inductive Cell : T 4 (Q K) → Q K → Option Bool → Q K → Prop where
  | full (t q) : Cell (.full t) q (some true) q
  | empty (t q) : Cell (.empty t) q (some false) q
  | leaf (d q) : Cell (.leaf d) q none q
  | root (ch i q k c) : Cell (ch i) (quadSplit q i) k c → Cell (.root ch) q k c

/-- If no cell of a tree is full, the full cells count nothing; if all are, they count everything. -/
theorem C350_full (m : Q K → K) (hm : ∀ q, m q = m (quadSplit q 0) + m (quadSplit q 1) + m (quadSplit q 2) + m (quadSplit q 3)) (t : T 4 (Q K)) :
    ∀ q, ((∀ k c, Cell t q k c → k ≠ some true) → foldTree (fun _ => 0) (fun _ => 0) m (fun _ => 0) t q = 0) ∧
      ((∀ k c, Cell t q k c → k = some true) → foldTree (fun _ => 0) (fun _ => 0) m (fun _ => 0) t q = m q) := by
  induction t with
  | leaf d => exact fun q => ⟨fun _ => rfl, fun h => absurd (h _ _ (.leaf d q)) (by simp)⟩
  | empty t _ => exact fun q => ⟨fun _ => rfl, fun h => absurd (h _ _ (.empty t q)) (by simp)⟩
  | full t _ => exact fun q => ⟨fun h => absurd rfl (h _ _ (.full t q)), fun _ => rfl⟩
  | root ch ih =>
    intro q
    constructor
    · intro h
      simp only [foldTree, (ih _ _).1 fun k c hc => h k c (.root ch _ q k c hc), add_zero]
    · intro h
      simp only [foldTree, (ih _ _).2 fun k c hc => h k c (.root ch _ q k c hc), zero_add]
      exact (hm q).symm

/-- The same for empty cells. -/
theorem C350_empty (m : Q K → K) (hm : ∀ q, m q = m (quadSplit q 0) + m (quadSplit q 1) + m (quadSplit q 2) + m (quadSplit q 3)) (t : T 4 (Q K)) :
    ∀ q, ((∀ k c, Cell t q k c → k ≠ some false) → foldTree (fun _ => 0) m (fun _ => 0) (fun _ => 0) t q = 0) ∧
      ((∀ k c, Cell t q k c → k = some false) → foldTree (fun _ => 0) m (fun _ => 0) (fun _ => 0) t q = m q) := by
  induction t with
  | leaf d => exact fun q => ⟨fun _ => rfl, fun h => absurd (h _ _ (.leaf d q)) (by simp)⟩
  | full t _ => exact fun q => ⟨fun _ => rfl, fun h => absurd (h _ _ (.full t q)) (by simp)⟩
  | empty t _ => exact fun q => ⟨fun h => absurd rfl (h _ _ (.empty t q)), fun _ => rfl⟩
  | root ch ih =>
    intro q
    constructor
    · intro h
      simp only [foldTree, (ih _ _).1 fun k c hc => h k c (.root ch _ q k c hc), add_zero]
    · intro h
      simp only [foldTree, (ih _ _).2 fun k c hc => h k c (.root ch _ q k c hc), zero_add]
      exact (hm q).symm

/-- A cell of area 4 with one full, one empty part and two leaves. -/
example : let l : T 4 (Q ℚ) := .leaf ((0, 0), (1, 1))
    let t : T 4 (Q ℚ) := .root ![.full l, .empty l, l, l]
    foldTree (fun _ => 0) (fun _ => 0) area (fun _ => 0) t ((0, 0), (2, 2)) = 1 ∧ foldTree (fun _ => 0) area (fun _ => 0) (fun _ => 0) t ((0, 0), (2, 2)) = 1 ∧
    foldTree (fun _ => 0) (fun _ => 0) (fun _ => 0) area t ((0, 0), (2, 2)) = 2 := by decide +kernel

/-- `trav` hands each leaf below the root to the callback once, in order, together with its parent. -/
theorem C350_trav (t : T 4 (Q K)) (h : isLeaf t = false) :
    (trav (fun _ => isLeaf) t).map Prod.snd = t.leaves.map .leaf ∧ ∀ e ∈ trav (fun _ => isLeaf) t, e.2 ∈ children e.1 := by
  have key : ∀ t : T 4 (Q K), isLeaf t = false → (travD t).map Prod.snd = t.leaves.map .leaf ∧ ∀ e ∈ travD t, e.2 ∈ children e.1 := by
    intro t
    have one : ∀ (p t : T 4 (Q K)), t ∈ children p → (isLeaf t = false → (travD t).map Prod.snd = t.leaves.map .leaf ∧ ∀ e ∈ travD t, e.2 ∈ children e.1) →
        (if isLeaf t then [(p, t)] else travD t).map Prod.snd = t.leaves.map .leaf ∧ ∀ e ∈ (if isLeaf t then [(p, t)] else travD t), e.2 ∈ children e.1 := by
      intro p t hp ih
      cases ht : isLeaf t with
      | false => exact ih ht
      | true =>
        cases t with
        | leaf d => refine ⟨rfl, ?_⟩
                    intro e he
                    have : e = (p, .leaf d) := by simpa using he
                    rw [this]; exact hp
        | _ => simp [isLeaf] at ht
    induction t with
    | leaf d => intro h; simp [isLeaf] at h
    | empty t ih => intro _; exact one (.empty t) t (by simp [children]) ih
    | full t ih => intro _; exact one (.full t) t (by simp [children]) ih
    | root ch ih =>
      intro _
      constructor
      · simp only [travD, T.leaves, List.map_flatMap]
        exact congrArg (fun f => List.flatMap f _) (funext fun i => (one (.root ch) (ch i) (by simp [children]) (ih i)).1)
      · intro e he
        obtain ⟨i, _, hi⟩ := List.mem_flatMap.1 he
        exact (one (.root ch) (ch i) (by simp [children]) (ih i)).2 e hi
  have : trav (fun _ => isLeaf) t = travD t := by
    cases t with
    | leaf d => simp [isLeaf] at h
    | empty t => simp [trav, children, travD]
    | full t => simp [trav, children, travD]
    | root ch => simp only [trav, children, travD, List.flatMap_map]
  rw [this]
  exact key t h

/-- A filter of the caller is used for the children of the root only. A filter that accepts nothing still visits every leaf two levels down. -/
theorem C350_filter_refuted (ch : Fin 4 → T 4 (Q K)) (h : ∀ i, isLeaf (ch i) = false) :
    (trav (fun _ _ => false) (.root ch)).map Prod.snd = (T.root ch).leaves.map .leaf := by
  rw [← (C350_trav (.root ch) rfl).1]
  congr 1
  simp only [trav, children, List.flatMap_map]
  congr 1
  funext i
  simp [h i]

example : (trav (fun _ _ => false) (buildTree quadSplit 2 (((0, 0), (1, 1)) : Q ℚ))).length = 16 := by decide +kernel

end Verif.Dc
