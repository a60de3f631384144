import Verif.Fea.Model
import Mathlib.Algebra.Order.Field.Rat
import Mathlib.Tactic.Linarith
import Mathlib.Tactic.NormNum
import Mathlib.Tactic.SplitIfs

/-! # C438, C439 -/

set_option linter.unusedSectionVars false

namespace Verif.Fea

variable {K : Type} [Field K] [LinearOrder K] [IsStrictOrderedRing K]

/-- The Euclidean norm in the plane. -/
def IsNorm (nrm : K → K → K) : Prop := ∀ x y, 0 ≤ nrm x y ∧ nrm x y * nrm x y = x * x + y * y

/-- The point lies in the cell. -/
def InCell (c : Cell K) (p : K × K) : Prop := (c.1.1 ≤ p.1 ∧ p.1 ≤ c.2.1) ∧ (c.1.2 ≤ p.2 ∧ p.2 ≤ c.2.2)

/-- A function that changes no faster than the distance (all signed distances are such). -/
def Lipschitz (nrm : K → K → K) (f : K × K → K) : Prop := ∀ p q : K × K, |f p - f q| ≤ nrm (p.1 - q.1) (p.2 - q.2)

/-- What is asked of `minimize`: a point of the cell with its value. -/
def MiniOk (f1 f2 : K × K → K) (mini : Cell K → (K × K) × K) (c : Cell K) : Prop := InCell c (mini c).1 ∧ (mini c).2 = both f1 f2 (mini c).1

theorem nrm_le {nrm : K → K → K} (hn : IsNorm nrm) {x y a b : K} (hx : |x| ≤ a) (hy : |y| ≤ b) : nrm x y ≤ nrm a b := by
  obtain ⟨h0, h1⟩ := hn x y
  obtain ⟨h2, h3⟩ := hn a b
  have e1 : x * x ≤ a * a := by rw [← abs_mul_abs_self x]; exact mul_self_le_mul_self (abs_nonneg _) hx
  have e2 : y * y ≤ b * b := by rw [← abs_mul_abs_self y]; exact mul_self_le_mul_self (abs_nonneg _) hy
  by_contra h
  push Not at h
  have := mul_self_lt_mul_self h2 h
  linarith

/-- The centre of a cell is near to all of its points. -/
theorem near_centre {nrm : K → K → K} (hn : IsNorm nrm) {c : Cell K} {p : K × K} (hp : InCell c p) {w h : K} (hw : c.2.1 - c.1.1 ≤ w)
    (hh : c.2.2 - c.1.2 ≤ h) : nrm ((centre c).1 - p.1) ((centre c).2 - p.2) ≤ nrm w h := by
  obtain ⟨⟨a1, a2⟩, b1, b2⟩ := hp
  apply nrm_le hn
  · rw [abs_le]; unfold centre; constructor <;> simp only <;> linarith
  · rw [abs_le]; unfold centre; constructor <;> simp only <;> linarith

/-- **C438**, a cell that is left out before the search has no common zero, if the functions change no faster than the distance and the first cell
is as large as this one. -/
theorem C438_skip {nrm : K → K → K} (hn : IsNorm nrm) {f1 f2 : K × K → K} (h1 : Lipschitz nrm f1) (h2 : Lipschitz nrm f2) {c : Cell K} {w h : K}
    (hw : c.2.1 - c.1.1 ≤ w) (hh : c.2.2 - c.1.2 ≤ h) {p : K × K} (hp : InCell c p) (z1 : f1 p = 0) (z2 : f2 p = 0) :
    ¬ nrm w h < |f1 (centre c)| ∧ ¬ nrm w h < |f2 (centre c)| := by
  have key : ∀ f : K × K → K, Lipschitz nrm f → f p = 0 → ¬ nrm w h < |f (centre c)| := by
    intro f hf hz hlt
    have := hf (centre c) p
    rw [hz, sub_zero] at this
    linarith [near_centre hn hp hw hh]
  exact ⟨key f1 h1 z1, key f2 h2 z2⟩

theorem find_spec {f1 f2 : K × K → K} {mini : Cell K → (K × K) × K} {eps : K} {c : Cell K} {norm : K} {x : K × K}
    (h : findFeature f1 f2 mini eps c norm = some x) : x = (mini c).1 ∧ |(mini c).2| ≤ eps := by
  unfold findFeature at h
  split_ifs at h with a b d
  cases h
  exact ⟨rfl, d⟩

/-- All that is given comes from a cell. -/
theorem scan_sound (find : Cell K → Option (K × K)) (tol : Option (K × K)) : ∀ (cs : List (Cell K)) (last : Option (K × K)) (r : List (K × K)),
    scan find tol last cs = some r → ∀ x ∈ r, ∃ c ∈ cs, find c = some x := by
  intro cs
  induction cs with
  | nil => intro last r h x hx; simp only [scan, Option.some.injEq] at h; rw [← h] at hx; simp at hx
  | cons c cs ih =>
    intro last r h x hx
    have tail : ∀ last' r', scan find tol last' cs = some r' → x ∈ r' → ∃ d ∈ c :: cs, find d = some x := by
      intro last' r' h' hx'
      obtain ⟨d, hd, he⟩ := ih last' r' h' x hx'
      exact ⟨d, List.mem_cons_of_mem _ hd, he⟩
    have push : ∀ y, find c = some y → (scan find tol (some y) cs).map (y :: ·) = some r → ∃ d ∈ c :: cs, find d = some x := by
      intro y hy h'
      obtain ⟨r', hr', rfl⟩ := Option.map_eq_some_iff.1 h'
      rcases List.mem_cons.1 hx with rfl | hx
      · exact ⟨c, by simp, hy⟩
      · exact tail _ _ hr' hx
    unfold scan at h
    split at h
    · exact tail _ _ h hx
    · rename_i y hy
      split at h
      · exact push y hy h
      · split at h
        · cases h
        · split_ifs at h with hcl
          · exact tail _ _ h hx
          · exact push y hy h

/-- Every point that a cell gives is given, or near to one that is given (or to the one given before). -/
theorem scan_complete (find : Cell K → Option (K × K)) (t : K × K) : ∀ (cs : List (Cell K)) (last : Option (K × K)) (r : List (K × K)),
    scan find (some t) last cs = some r → ∀ c ∈ cs, ∀ x, find c = some x → x ∈ r ∨ ∃ l, (last = some l ∨ l ∈ r) ∧ allclose t l x := by
  intro cs
  induction cs with
  | nil => intro last r h c hc; simp at hc
  | cons d cs ih =>
    intro last r h c hc x hx
    have push : ∀ y, find d = some y → (scan find (some t) (some y) cs).map (y :: ·) = some r →
        x ∈ r ∨ ∃ l, (last = some l ∨ l ∈ r) ∧ allclose t l x := by
      intro y hy h'
      obtain ⟨r', hr', rfl⟩ := Option.map_eq_some_iff.1 h'
      rcases List.mem_cons.1 hc with rfl | hc
      · rw [hy] at hx; cases hx; left; simp
      · rcases ih _ _ hr' c hc x hx with h1 | ⟨l, h1, h2⟩
        · left; exact List.mem_cons_of_mem _ h1
        · right
          refine ⟨l, Or.inr ?_, h2⟩
          rcases h1 with h1 | h1
          · cases h1; simp
          · exact List.mem_cons_of_mem _ h1
    unfold scan at h
    split at h
    · rename_i hd
      rcases List.mem_cons.1 hc with rfl | hc
      · rw [hd] at hx; cases hx
      · exact ih _ _ h c hc x hx
    · rename_i y hy
      split at h
      · exact push y hy h
      · simp only at h
        split_ifs at h with hcl
        · rcases List.mem_cons.1 hc with rfl | hc
          · rw [hy] at hx; cases hx
            right; exact ⟨_, Or.inl rfl, hcl⟩
          · exact ih _ _ h c hc x hx
        · exact push y hy h

theorem scan_total (find : Cell K → Option (K × K)) (t : K × K) : ∀ (cs : List (Cell K)) (last : Option (K × K)), ∃ r, scan find (some t) last cs = some r := by
  intro cs
  induction cs with
  | nil => intro last; exact ⟨[], rfl⟩
  | cons c cs ih =>
    intro last
    unfold scan
    split
    · exact ih last
    · rename_i y hy
      obtain ⟨r, hr⟩ := ih (some y)
      split
      · exact ⟨y :: r, by rw [hr]; rfl⟩
      · simp only
        split_ifs
        · exact ih _
        · exact ⟨y :: r, by rw [hr]; rfl⟩

/-- **C438**, what is given.  Every point is in one of the cells and both functions are at most `eps` there. -/
theorem C438_sound (nrm : K → K → K) (f1 f2 : K × K → K) (mini : Cell K → (K × K) × K) (eps : K) (dflt : K × K) (rtol atol : Option K)
    (cs : List (Cell K)) (hm : ∀ c ∈ cs, MiniOk f1 f2 mini c) {r : List (K × K)}
    (h : features nrm f1 f2 mini eps dflt rtol atol cs = some r) : ∀ x ∈ r, (∃ c ∈ cs, InCell c x) ∧ |f1 x| ≤ eps ∧ |f2 x| ≤ eps := by
  rcases cs with _ | ⟨c0, cs⟩
  · simp [features] at h
  intro x hx
  obtain ⟨c, hc, hf⟩ := scan_sound _ _ _ _ _ h x hx
  obtain ⟨rfl, he⟩ := find_spec hf
  obtain ⟨h1, h2⟩ := hm c hc
  rw [h2] at he
  have hb : both f1 f2 (mini c).1 ≤ eps := le_trans (le_abs_self _) he
  exact ⟨⟨c, hc, h1⟩, le_trans (le_max_left _ _) hb, le_trans (le_max_right _ _) hb⟩

/-- **C438** (part), what is found.  For functions that change no faster than the distance, cells no larger than the first one and a search that ends
at a value of at most `eps` wherever there is a common zero: for every cell with a common zero the point of the search is given, or one that
is near in both coordinates.  Missing: other functions, see below; the arguments `rtol` and `atol`. -/
theorem C438_complete_partial {nrm : K → K → K} (hn : IsNorm nrm) {f1 f2 : K × K → K} (h1 : Lipschitz nrm f1) (h2 : Lipschitz nrm f2)
    (mini : Cell K → (K × K) × K) (eps : K) (dflt : K × K) (c0 : Cell K) (cs : List (Cell K))
    (hsize : ∀ c ∈ c0 :: cs, c.2.1 - c.1.1 ≤ c0.2.1 - c0.1.1 ∧ c.2.2 - c.1.2 ≤ c0.2.2 - c0.1.2)
    (hmini : ∀ c ∈ c0 :: cs, (∃ p, InCell c p ∧ f1 p = 0 ∧ f2 p = 0) → |(mini c).2| ≤ eps) :
    ∃ r, features nrm f1 f2 mini eps dflt none none (c0 :: cs) = some r ∧ ∀ c ∈ c0 :: cs, (∃ p, InCell c p ∧ f1 p = 0 ∧ f2 p = 0) →
      (mini c).1 ∈ r ∨ ∃ l ∈ r, |l.1 - (mini c).1.1| ≤ dflt.2 + dflt.1 * |(mini c).1.1| ∧ |l.2 - (mini c).1.2| ≤ dflt.2 + dflt.1 * |(mini c).1.2| := by
  have ht : tols dflt none none = some dflt := by simp [tols]
  obtain ⟨r, hr⟩ := scan_total (fun d => findFeature f1 f2 mini eps d (nrm (c0.2.1 - c0.1.1) (c0.2.2 - c0.1.2))) dflt (c0 :: cs) none
  refine ⟨r, by simp only [features, ht]; exact hr, fun c hc hz => ?_⟩
  obtain ⟨p, hp, z1, z2⟩ := hz
  obtain ⟨hw, hh⟩ := hsize c hc
  obtain ⟨s1, s2⟩ := C438_skip hn h1 h2 hw hh hp z1 z2
  have hfind : findFeature f1 f2 mini eps c (nrm (c0.2.1 - c0.1.1) (c0.2.2 - c0.1.2)) = some (mini c).1 := by
    unfold findFeature
    rw [if_neg s1, if_neg s2, if_pos (hmini c hc ⟨p, hp, z1, z2⟩)]
  rcases scan_complete _ _ _ _ _ hr c hc _ hfind with h | ⟨l, h | h, h'⟩
  · exact Or.inl h
  · cases h
  · exact Or.inr ⟨l, h, h'⟩

/-- The two axes and one cell around the origin. -/
example : Lipschitz (fun x y : ℚ => |x| + |y|) (fun p => p.1) ∧
    features (fun x y : ℚ => |x| + |y|) (fun p => p.1) (fun p => p.2) (fun _ => ((0, 0), 0)) 0 (1 / 100000, 1 / 100000000) none none
      [((-1, -1), (2, 3))] = some [(0, 0)] := by
  refine ⟨fun p q => by simp, by decide +kernel⟩

/-- **C438** refuted, other functions.  `10 x` and `10 y` have the common zero `(0, 0)`; the cell `[-1/4, 3/4]²` holds it and nothing is found, whatever
`minimize` would return. -/
theorem C438_steep_refuted {nrm : K → K → K} (hn : IsNorm nrm) (mini : Cell K → (K × K) × K) (eps : K) (dflt : K × K) (rtol atol : Option K) :
    InCell (((-1 / 4, -1 / 4), (3 / 4, 3 / 4)) : Cell K) ((0, 0) : K × K) ∧
      features nrm (fun p => 10 * p.1) (fun p => 10 * p.2) mini eps dflt rtol atol [((-1 / 4, -1 / 4), (3 / 4, 3 / 4))] = some [] := by
  constructor
  · unfold InCell; norm_num
  · obtain ⟨h0, h1⟩ := hn 1 1
    have h2 : nrm 1 1 < 5 / 2 := by
      by_contra h
      push Not at h
      have := mul_self_le_mul_self (by norm_num) h
      linarith
    have e : nrm (3 / 4 - -1 / 4) (3 / 4 - -1 / 4) = nrm 1 1 := by norm_num
    have hf : findFeature (fun p : K × K => 10 * p.1) (fun p => 10 * p.2) mini eps ((-1 / 4, -1 / 4), (3 / 4, 3 / 4))
        (nrm (3 / 4 - -1 / 4) (3 / 4 - -1 / 4)) = none := by
      unfold findFeature
      rw [e, if_pos]
      unfold centre
      have : (10 : K) * ((-1 / 4 + 3 / 4) / 2) = 5 / 2 := by norm_num
      simp only [this]
      rw [abs_of_pos (by norm_num)]
      exact h2
    simp only [features, scan, hf]

/-- **C438** refuted, repetitions.  The comparison is with the point given last only: a point that is found in the first and in the third cell, with
another one in between, is given twice. -/
theorem C438_repeated_refuted (find : Cell K → Option (K × K)) (t : K × K) (a b c : Cell K) (p q : K × K) (ha : find a = some p)
    (hb : find b = some q) (hc : find c = some p) (h1 : t.2 + t.1 * |q.1| < |p.1 - q.1| ∨ t.2 + t.1 * |q.2| < |p.2 - q.2|)
    (h2 : t.2 + t.1 * |p.1| < |q.1 - p.1| ∨ t.2 + t.1 * |p.2| < |q.2 - p.2|) :
    scan find (some t) none [a, b, c] = some [p, q, p] := by
  have h1 : ¬ allclose t p q := fun h => h1.elim (not_lt.2 h.1) (not_lt.2 h.2)
  have h2 : ¬ allclose t q p := fun h => h2.elim (not_lt.2 h.1) (not_lt.2 h.2)
  simp [scan, ha, hb, hc, h1, h2]

example : features (fun x y : ℚ => |x| + |y|) (fun p => (p.1 - 1) / 4) (fun p => p.2 / 4) (fun c => (if c.1.1 = 5 then (5, 0) else (1, 0), 0)) 0
      (1 / 100000, 1 / 100000000) none none [((0, 0), (1, 1)), ((5, 0), (6, 1)), ((1, 0), (2, 1))] = some [(1, 0), (5, 0), (1, 0)] := by
  decide +kernel

/-- **C438** refuted, tolerances.  `rtol` is never used: with `atol` it is replaced by `atol`; without, two cells with points make the call raise. -/
theorem C438_tol_refuted (dflt : K × K) (r a : K) (hr : r ≠ 0) (ha : a ≠ 0) :
    tols dflt (some r) (some a) = some (a, a) ∧ tols dflt (some r) none = none ∧
      ∀ (find : Cell K → Option (K × K)) (c d : Cell K) (p q : K × K) (cs : List (Cell K)), find c = some p → find d = some q →
        scan find (tols dflt (some r) none) none (c :: d :: cs) = none := by
  refine ⟨by simp [tols, hr, ha], by simp [tols, hr], ?_⟩
  intro find c d p q cs h1 h2
  simp [scan, h1, h2, tols, hr]

/-- **C438** refuted, no cells: the call raises, e.g. for two curves without common points whose tree has no border. -/
theorem C438_empty_refuted (nrm : K → K → K) (f1 f2 : K × K → K) (mini : Cell K → (K × K) × K) (eps : K) (dflt : K × K) (rtol atol : Option K) :
    features nrm f1 f2 mini eps dflt rtol atol [] = none := rfl

/-- **C438** refuted, the default.  Without a tree `curve_iix` raises for all curves: the tree is built on a function, which has no `bounds`. -/
theorem C438_default_refuted (border : (K × K → K) → Cell K → List (Cell K)) (nrm : K → K → K) (f1 f2 : K × K → K)
    (mini : Cell K → (K × K) × K) (eps : K) (dflt : K × K) (rtol atol : Option K) :
    curveIix border nrm f1 f2 mini eps dflt rtol atol none = none := rfl

/-- With a tree it is `implicit_find_features` on its border, so that the points are common zeros up to `eps`. -/
theorem C438_tree (border : (K × K → K) → Cell K → List (Cell K)) (nrm : K → K → K) (f1 f2 : K × K → K) (mini : Cell K → (K × K) × K) (eps : K)
    (dflt : K × K) (rtol atol : Option K) (cs : List (Cell K)) (hm : ∀ c ∈ cs, MiniOk f1 f2 mini c) {r : List (K × K)}
    (h : curveIix border nrm f1 f2 mini eps dflt rtol atol (some cs) = some r) :
    ∀ x ∈ r, (∃ c ∈ cs, InCell c x) ∧ |f1 x| ≤ eps ∧ |f2 x| ≤ eps :=
  C438_sound nrm f1 f2 mini eps dflt rtol atol cs hm h

/-! ## The guesses of a grid -/

/-- **C439** (part).  If no distance is the threshold itself, the pairs are those of the points nearer than the threshold, each parameter with the
sample nearest to its own point. -/
theorem C439_partial (mdst : K) (l : List (Sample K)) (h : ∀ s ∈ l, s.dst ≠ mdst) :
    pairs mdst l = (l.filter fun s => s.dst < mdst).map fun s => (s.t, s.uv) := by
  unfold pairs
  have e : (l.filter fun s => decide (s.dst ≤ mdst)) = l.filter fun s => decide (s.dst < mdst) := by
    apply List.filter_congr
    intro s hs
    have := h s hs
    simp only [decide_eq_decide]
    exact ⟨fun h' => lt_of_le_of_ne h' this, le_of_lt⟩
  rw [e, List.zip_map']

/-- The guesses are some of the pairs, and every pair that is left out is near to the pair before it. -/
theorem thin_sublist (tol : K) : ∀ (l : List (K × (K × K))) (old : Option (K × (K × K))), (thin tol old l).Sublist l := by
  intro l
  induction l with
  | nil => intro old; simp [thin]
  | cons x l ih =>
    intro old
    unfold thin
    split
    · exact (ih _).cons_cons _
    · split_ifs
      · exact (ih _).cons _
      · exact (ih _).cons_cons _

/-- Every pair is joined to a guess by a chain of pairs in which neighbours are near. -/
theorem C439_chain (tol : K) : ∀ (l : List (K × (K × K))) (x : K × (K × K)), x ∈ l → ∃ g ∈ thin tol none l,
    Relation.ReflTransGen (fun a b => |a.1 - b.1| < tol ∧ |a.2.1 - b.2.1| < tol ∧ |a.2.2 - b.2.2| < tol) g x := by
  have key : ∀ (l : List (K × (K × K))) (o : K × (K × K)) (x : K × (K × K)), x ∈ l →
      Relation.ReflTransGen (fun a b => |a.1 - b.1| < tol ∧ |a.2.1 - b.2.1| < tol ∧ |a.2.2 - b.2.2| < tol) o x ∨
      ∃ g ∈ thin tol (some o) l,
        Relation.ReflTransGen (fun a b => |a.1 - b.1| < tol ∧ |a.2.1 - b.2.1| < tol ∧ |a.2.2 - b.2.2| < tol) g x := by
    intro l
    induction l with
    | nil => intro o x hx; simp at hx
    | cons y l ih =>
      intro o x hx
      unfold thin
      simp only
      split_ifs with h
      · rcases List.mem_cons.1 hx with rfl | hx
        · left; exact Relation.ReflTransGen.single h
        · rcases ih y x hx with h1 | ⟨g, h1, h2⟩
          · left; exact Relation.ReflTransGen.head h h1
          · right; exact ⟨g, h1, h2⟩
      · right
        rcases List.mem_cons.1 hx with rfl | hx
        · exact ⟨_, by simp, Relation.ReflTransGen.refl⟩
        · rcases ih y x hx with h1 | ⟨g, h1, h2⟩
          · exact ⟨y, by simp, h1⟩
          · exact ⟨g, List.mem_cons_of_mem _ h1, h2⟩
  intro l x hx
  rcases l with _ | ⟨y, l⟩
  · simp at hx
  · unfold thin
    simp only
    rcases List.mem_cons.1 hx with rfl | hx
    · exact ⟨_, by simp, Relation.ReflTransGen.refl⟩
    · rcases key l y x hx with h1 | ⟨g, h1, h2⟩
      · exact ⟨y, by simp, h1⟩
      · exact ⟨g, List.mem_cons_of_mem _ h1, h2⟩

/-- **C439** refuted.  If the first point of the curve is exactly at the threshold and the others are nearer, every parameter is paired with the
sample of the point before it. -/
theorem C439_refuted (mdst : K) (s : Sample K) (l : List (Sample K)) (hs : s.dst = mdst) (hl : ∀ x ∈ l, x.dst < mdst) :
    pairs mdst (s :: l) = (l.map (·.t)).zip (s.uv :: l.map (·.uv)) := by
  unfold pairs
  have e1 : ((s :: l).filter fun x => decide (x.dst < mdst)) = l := by
    rw [List.filter_cons, if_neg (by simp [hs])]
    exact List.filter_eq_self.2 (fun x hx => by simpa using hl x hx)
  have e2 : ((s :: l).filter fun x => decide (x.dst ≤ mdst)) = s :: l := by
    apply List.filter_eq_self.2
    intro x hx
    rcases List.mem_cons.1 hx with rfl | hx
    · simp [hs]
    · simpa using (hl x hx).le
  rw [e1, e2, List.map_cons]

/-- Three points, the first at the distance `1` of the threshold: the parameter `2` is given with the sample of the parameter `1`. -/
example : gs2 1 (1 / 100) [(⟨1, 1, (10, 10)⟩ : Sample ℚ), ⟨2, 1 / 2, (20, 20)⟩, ⟨3, 1 / 3, (30, 30)⟩] = [(2, (10, 10)), (3, (20, 20))] := by
  decide +kernel

end Verif.Fea
