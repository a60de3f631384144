import Verif.Knot.Props2

/-! # C247: ruled surfaces -/

set_option linter.unusedSectionVars false

namespace Verif.Knot
open Verif.Nurbs Finset

variable {K : Type} [Field K] [LinearOrder K] [IsStrictOrderedRing K]

theorem count_lo (c : Curve K) (h : Clamped c) : (knotList c).count (c.U c.degree) = c.degree + 1 := by
  have hk := h.valid.knots
  have hn := h.valid.npos
  rw [knotList, count_range, ← card_range (c.degree + 1)]
  congr 1
  ext i
  rw [mem_filter, mem_range, mem_range]
  constructor
  · rintro ⟨h1, h2⟩
    by_contra hc
    have := h.valid.mono (c.degree + 1) i (by omega) h1
    rw [h2] at this
    exact absurd h.start (not_lt.mpr this)
  · intro hi
    exact ⟨by omega, h.lo_eq i (by omega)⟩

theorem count_hi (c : Curve K) (h : Clamped c) : (knotList c).count (c.U c.n) = c.degree + 1 := by
  have hk := h.valid.knots
  have hn := h.valid.npos
  have e : c.degree + 1 = (Ico c.n c.m).card := by rw [Nat.card_Ico]; omega
  rw [knotList, count_range, e]
  congr 1
  ext i
  rw [mem_filter, mem_range, mem_Ico]
  constructor
  · rintro ⟨h1, h2⟩
    refine ⟨?_, h1⟩
    by_contra hc
    have := h.valid.mono i (c.n - 1) (by omega) (by omega)
    rw [h2] at this
    exact absurd h.valid.last (not_lt.mpr this)
  · rintro ⟨h1, h2⟩
    exact ⟨h2, h.hi_eq i h1 h2⟩

theorem count_inner (c : Curve K) (h : Clamped c) (hj : NoJump c) (x : K) (h1 : c.U c.degree < x) (h2 : x < c.U c.n) :
    (knotList c).count x ≤ c.degree := by
  have hsep : ∀ i, i < c.m → |x - c.U i| ≤ (fun _ : K => (0 : K)) (c.U i) → c.U i = x := by
    intro i _ hle
    have := abs_nonpos_iff.mp hle
    exact (sub_eq_zero.mp this).symm
  have := mult_le_degree c h.valid hj (fun _ => 0) x h1 h2 hsep
  rwa [mult_count (fun _ => 0) (fun _ => le_refl _) x c.U c.m hsep] at this

theorem knot_range (c : Curve K) (h : Clamped c) (x : K) (hx : x ∈ knotList c) : c.U c.degree ≤ x ∧ x ≤ c.U c.n := by
  obtain ⟨i, hi, rfl⟩ := (knotList_mem c x).mp hx
  have hk := h.valid.knots
  rw [← h.lo, ← h.hi]
  exact ⟨h.valid.mono 0 i (by omega) hi, h.valid.mono i (c.m - 1) (by omega) (by omega)⟩

theorem count_le (c : Curve K) (h : Clamped c) (hj : NoJump c) (x : K) : (knotList c).count x ≤ c.degree + 1 := by
  by_cases hx : x ∈ knotList c
  · obtain ⟨r1, r2⟩ := knot_range c h x hx
    rcases lt_or_eq_of_le r1 with r1 | r1
    · rcases lt_or_eq_of_le r2 with r2 | r2
      · exact le_trans (count_inner c h hj x r1 r2) (by omega)
      · rw [r2, count_hi c h]
    · rw [← r1, count_lo c h]
  · rw [List.count_eq_zero_of_not_mem hx]; omega

/-- Two curves on one domain, refined to the merged vector. -/
theorem refine_merged (close : K → K → Bool) (e1 e2 : Curve K) (h1 : Clamped e1) (h2 : Clamped e2) (j2 : NoJump e2)
    (hd : e1.degree = e2.degree) (hlo : e1.U e1.degree = e2.U e2.degree) (hhi : e1.U e1.n = e2.U e2.n) (ks : List K)
    (hs : ks.Pairwise (· ≤ ·)) (hc : ∀ x, ks.count x = max ((knotList e1).count x) ((knotList e2).count x))
    (fuel : Nat) (hf : ks.length ≤ fuel) (eps : K → K) (heps : ∀ y, 0 ≤ eps y)
    (hsep : ∀ x ∈ ks, ∀ y ∈ ks, |x - y| ≤ eps y → y = x) (init junk : Nat → Nat → K) :
    ∃ c', refineCurve fuel eps init junk e1 ks = some (some c') ∧ knotList c' = ks ∧ Refined e1 c' := by
  refine C246_refine_partial e1 h1.valid ks hs (fun x => by rw [hc]; exact le_max_left _ _) (fun x hx => ?_) fuel hf eps heps
    hsep init junk
  have hlt : (knotList e1).count x < (knotList e2).count x := by
    rw [hc] at hx
    by_contra hn
    rw [max_eq_left (not_lt.mp hn)] at hx
    exact absurd hx (lt_irrefl _)
  have hmem : x ∈ knotList e2 := List.count_pos_iff.mp (by omega)
  obtain ⟨r1, r2⟩ := knot_range e2 h2 x hmem
  have n1 : x ≠ e2.U e2.degree := by
    intro he
    rw [he, count_lo e2 h2, ← hlo, count_lo e1 h1] at hlt
    omega
  have n2 : x ≠ e2.U e2.n := by
    intro he
    rw [he, count_hi e2 h2, ← hhi, count_hi e1 h1] at hlt
    omega
  have r1' := lt_of_le_of_ne r1 (Ne.symm n1)
  have r2' := lt_of_le_of_ne r2 n2
  refine ⟨by rw [hlo]; exact r1, by rw [hhi]; exact r2', ?_⟩
  have := count_inner e2 h2 j2 x r1' r2'
  rw [hc, max_eq_right (le_of_lt hlt)]
  omega

theorem specVal_one_weight (d : Curve K) (hd : Valid d) (w : K) (hdw : ∀ l, l < d.n → d.P l 3 = w) (x : K)
    (hd1 : d.U d.degree ≤ x) (hd2 : x ≤ d.U d.n) : specVal d (fun l => d.P l 3) x = w := by
  obtain ⟨i, _, hpi, hsp⟩ := findSpan_sp d.n d.n d.degree x d.U hd.npos (le_refl _) d.m hd.mono
    (by rw [hd.knots]; have := hd.npos; omega) hd.last hd1 hd2
  rw [specVal_eq d hd _ x i hsp, spline_const d.U d.degree d.n _ (fun _ => w * 1) x i
    (fun l hl => by rw [hdw l hl, mul_one]), spline_smul,
    spline_ones d.U d.m hd.mono d.degree d.n x i hsp.2.1 hpi hsp.1 (by rw [hd.knots]; have := hsp.1; omega), mul_one]

theorem linear_basis (v : K) (h0 : 0 ≤ v) (h1 : v ≤ 1) (V : Nat → K) (hV : V = fun i => if i < 2 then 0 else 1) :
    bspl V 2 v 1 0 = 1 - v ∧ bspl V 2 v 1 1 = v := by
  subst hV
  rcases lt_or_eq_of_le h1 with h | h
  · constructor <;> simp [bspl, bspl0, h0, h]
  · subst h
    constructor <;> simp [bspl, bspl0]

/-- The result of the elevation in `make_curves_compatible`, or the curve itself. -/
theorem elevated (g : Nat → K) (c : Curve K) (h : Clamped c) (num : Nat) (h30 : c.degree + num ≤ 30)
    (fuel : Nat) (hf : c.m ≤ fuel) (eps : K → K) (heps : ∀ y, 0 ≤ eps y) (tol : K) (htol : 0 ≤ tol) (hcut : Cuttable c eps tol)
    (init junk : Nat → Nat → K) :
    ∃ f, (if 0 < num then degreeElevate g fuel eps tol init junk c num else some (some c)) = some (some f) ∧ Clamped f ∧ NoJump f ∧
      f.degree = c.degree + num ∧ f.U f.degree = c.U c.degree ∧ f.U f.n = c.U c.n ∧
      (∀ x, c.U c.degree ≤ x → x ≤ c.U c.n → ∀ col, specVal f (fun l => f.P l col) x = specVal c (fun l => c.P l col) x) ∧
      (∀ w, (∀ l, l < c.n → c.P l 3 = w) → ∀ l, l < f.n → f.P l 3 = w) ∧ ∀ x ∈ knotList f, x ∈ knotList c := by
  by_cases q : 0 < num
  · rw [if_pos q]
    obtain ⟨f, f1, f2, f3, f4, f5, f6, f7, f8, f9⟩ := C244_elevate_columns g c h num q h30 fuel hf eps heps tol htol hcut init junk
    refine ⟨f, f1, f2, f8, f3, f4, f5, f6, f7, fun x hx => ?_⟩
    obtain ⟨i, hi, rfl⟩ := (knotList_mem f x).mp hx
    obtain ⟨j, hj, e⟩ := f9 i hi
    exact (knotList_mem c _).mpr ⟨j, hj, e.symm⟩
  · rw [if_neg q]
    exact ⟨c, rfl, h, hcut.noJump, by omega, rfl, rfl, fun _ _ _ _ => rfl, fun _ h => h, fun _ h => h⟩

/-- `c` at the parameter `u` of its domain scaled to `[0, 1]`. -/
def atUnit (c : Curve K) (u : K) : K := c.U c.degree + u * (c.U c.n - c.U c.degree)

/-- **C247** `ruled`: two clamped curves of any degrees up to 30 whose weights all have one value `w`, with knots (scaled to
`[0, 1]`) that are either equal or further apart than the tolerances: the surface is well formed, of degree 1 in `v`, on the
unit square, and its point at `(u, v)` is the point at `v` between the points of the two curves, divided by `w`. -/
theorem C247_ruled_value (g : Nat → K) (close : K → K → Bool) (c1 c2 : Curve K) (h1 : Clamped c1) (h2 : Clamped c2)
    (d1 : c1.degree ≤ 30) (d2 : c2.degree ≤ 30) (fuel : Nat) (hf : (c1.m + c2.m) * 31 ≤ fuel)
    (eps : K → K) (heps : ∀ y, 0 ≤ eps y) (tol : K) (htol : 0 ≤ tol)
    (cut1 : Cuttable c1.normalizeKnots eps tol) (cut2 : Cuttable c2.normalizeKnots eps tol)
    (hsep : ∀ x ∈ knotList c1.normalizeKnots ++ knotList c2.normalizeKnots,
      ∀ y ∈ knotList c1.normalizeKnots ++ knotList c2.normalizeKnots, |x - y| ≤ eps y → y = x)
    (hclose : ∀ x ∈ knotList c1.normalizeKnots ++ knotList c2.normalizeKnots,
      ∀ y ∈ knotList c1.normalizeKnots ++ knotList c2.normalizeKnots, close x y = true ↔ x = y)
    (init junk : Nat → Nat → K) (w : K) (hw0 : w ≠ 0) (hw1 : ∀ l, l < c1.n → c1.P l 3 = w) (hw2 : ∀ l, l < c2.n → c2.P l 3 = w) :
    ∃ S, ruled g close fuel eps tol init junk c1 c2 = some (some S) ∧ SValid S ∧ S.pu = max c1.degree c2.degree ∧ S.pv = 1 ∧
      S.U S.pu = 0 ∧ S.U S.nu = 1 ∧ S.V S.pv = 0 ∧ S.V S.nv = 1 ∧
      ∀ u, 0 ≤ u → u ≤ 1 → ∀ v, 0 ≤ v → v ≤ 1 → ∀ col, ∃ y1 y2, c1.evaluate fuel (atUnit c1 u) col = some y1 ∧
        c2.evaluate fuel (atUnit c2 u) col = some y2 ∧ S.evaluate fuel u v col = some (((1 - v) * y1 + v * y2) / w) := by
  have norm : ∀ c : Curve K, Clamped c → Clamped c.normalizeKnots ∧ c.normalizeKnots.U c.normalizeKnots.degree = 0 ∧
      c.normalizeKnots.U c.normalizeKnots.n = 1 ∧ ∀ q u, specVal c.normalizeKnots q u = specVal c q (atUnit c u) := by
    intro c h
    obtain ⟨a1, a2⟩ := affine_clamped c c.normalizeKnots h (c.U 0) (c.U (c.m - 1) - c.U 0) h.width rfl rfl rfl h.nonper
      (fun i hi => normalize_U c h.valid i hi)
    have hk := h.valid.knots
    have hn := h.valid.npos
    have hw := h.width
    refine ⟨a1, ?_, ?_, fun q u => ?_⟩
    · change c.normalizeKnots.U c.degree = 0
      rw [normalize_U c h.valid _ (by omega), ← h.lo, sub_self, zero_div]
    · change c.normalizeKnots.U c.n = 1
      rw [normalize_U c h.valid _ (by omega), ← h.hi, div_self (ne_of_gt hw)]
    · rw [← a2 q (atUnit c u)]
      congr 1
      rw [atUnit, ← h.lo, ← h.hi, add_sub_cancel_left, mul_div_assoc, div_self (ne_of_gt hw), mul_one]
  obtain ⟨n1, l1, u1, v1⟩ := norm c1 h1
  obtain ⟨n2, l2, u2, v2⟩ := norm c2 h2
  have hm31 : c1.m + c2.m ≤ fuel := le_trans (Nat.le_mul_of_pos_right _ (by omega)) hf
  obtain ⟨f1, a1, a2, a3, a4, a5, a6, a7, a8, a9⟩ := elevated g c1.normalizeKnots n1 (c2.degree - c1.degree)
    (by change c1.degree + _ ≤ 30; omega) fuel (by change c1.m ≤ fuel; omega) eps heps tol htol cut1 init junk
  obtain ⟨f2, b1, b2, b3, b4, b5, b6, b7, b8, b9⟩ := elevated g c2.normalizeKnots n2 (c1.degree - c2.degree)
    (by change c2.degree + _ ≤ 30; omega) fuel (by change c2.m ≤ fuel; omega) eps heps tol htol cut2 init junk
  have a4' : f1.degree = c1.degree + (c2.degree - c1.degree) := a4
  have b4' : f2.degree = c2.degree + (c1.degree - c2.degree) := b4
  have hdeg : f1.degree = f2.degree := by omega
  have hmem : ∀ x ∈ knotList f1 ++ knotList f2, x ∈ knotList c1.normalizeKnots ++ knotList c2.normalizeKnots := by
    intro x hx
    rcases List.mem_append.mp hx with h | h
    · exact List.mem_append_left _ (a9 x h)
    · exact List.mem_append_right _ (b9 x h)
  obtain ⟨m1, m2⟩ := C245_merge_partial close (knotList f1) (knotList f2)
    (fun x hx y hy => hclose x (hmem x hx) y (hmem y hy))
  obtain ⟨ks, hks⟩ : ∃ ks, ks = mergeKnots close (knotList f1) (knotList f2) := ⟨_, rfl⟩
  rw [← hks] at m1 m2
  have hkm : ∀ x ∈ ks, x ∈ knotList f1 ++ knotList f2 := by
    intro x hx
    have h := m2 x
    have : 0 < ks.count x := List.count_pos_iff.mpr hx
    rw [h] at this
    rcases lt_max_iff.mp this with q | q
    · exact List.mem_append_left _ (List.count_pos_iff.mp q)
    · exact List.mem_append_right _ (List.count_pos_iff.mp q)
  have hlen : ks.length ≤ fuel := by
    obtain ⟨s1, s2⟩ := foldr_insertSet (knotList f1 ++ knotList f2)
    have hB : ∀ x ∈ (knotList f1 ++ knotList f2).foldr insertSet [],
        max ((knotList f1).countP (close · x)) ((knotList f2).countP (close · x)) ≤ 31 := by
      intro x hx
      have hx' := (s2 x).mp hx
      rw [count_close close (knotList f1) x fun y hy => hclose y (hmem y (List.mem_append_left _ hy)) x (hmem x hx'),
        count_close close (knotList f2) x fun y hy => hclose y (hmem y (List.mem_append_right _ hy)) x (hmem x hx')]
      have := count_le f1 a2 a3 x
      have := count_le f2 b2 b3 x
      omega
    have hl := (flatMap_replicate (fun k => max ((knotList f1).countP (close · k)) ((knotList f2).countP (close · k))) _ s1).2.2
      31 hB
    have hnod : ((knotList f1 ++ knotList f2).foldr insertSet []).Nodup := s1.imp fun h => ne_of_lt h
    have hsub : (knotList f1 ++ knotList f2).foldr insertSet [] ⊆ knotList c1.normalizeKnots ++ knotList c2.normalizeKnots :=
      fun x hx => hmem x ((s2 x).mp hx)
    have hll := (hnod.subperm hsub).length_le
    have e : (knotList c1.normalizeKnots ++ knotList c2.normalizeKnots).length = c1.m + c2.m := by
      simp [knotList]
      rfl
    rw [e] at hll
    rw [hks, mergeKnots]
    exact le_trans hl (le_trans (Nat.mul_le_mul_right 31 hll) hf)
  have hsep' : ∀ x ∈ ks, ∀ y ∈ ks, |x - y| ≤ eps y → y = x := fun x hx y hy =>
    hsep x (hmem x (hkm x hx)) y (hmem y (hkm y hy))
  have elo : f1.U f1.degree = f2.U f2.degree := by rw [a5, b5, l1, l2]
  have ehi : f1.U f1.n = f2.U f2.n := by rw [a6, b6, u1, u2]
  obtain ⟨r1, p1, p2, p3⟩ := refine_merged close f1 f2 a2 b2 b3 hdeg elo ehi ks m1 m2 fuel hlen eps heps hsep' init junk
  obtain ⟨r2, q1, q2, q3⟩ := refine_merged close f2 f1 b2 a2 a3 hdeg.symm elo.symm ehi.symm ks m1
    (fun x => by rw [m2, max_comm]) fuel hlen eps heps hsep' init junk
  have hrm : r1.m = r2.m := by
    have e1 : (knotList r1).length = r1.m := by simp [knotList]
    have e2 : (knotList r2).length = r2.m := by simp [knotList]
    rw [← e1, ← e2, p2, q2]
  have hrU : ∀ k, k < r1.m → r1.U k = r2.U k := by
    intro k hk
    have e1 := knotList_get r1 k hk
    have e2 := knotList_get r2 k (by omega)
    rw [p2] at e1
    rw [q2, e1] at e2
    exact Option.some.inj e2
  have hrd : r1.degree = r2.degree := by rw [p3.degree, q3.degree, hdeg]
  have k1 := p3.valid.knots
  have k2 := q3.valid.knots
  have hrn : r1.n = r2.n := by omega
  have hcompat : makeCompatible g close fuel eps tol init junk c1.normalizeKnots c2.normalizeKnots = some (some (r1, r2)) := by
    have e1 : (if c1.normalizeKnots.degree < c2.normalizeKnots.degree then
        degreeElevate g fuel eps tol init junk c1.normalizeKnots (c2.normalizeKnots.degree - c1.normalizeKnots.degree)
        else some (some c1.normalizeKnots)) = some (some f1) := by
      rw [← a1]
      by_cases q : c1.degree < c2.degree
      · exact (if_pos q).trans (if_pos (by omega)).symm
      · exact (if_neg q).trans (if_neg (by omega)).symm
    have e2 : (if c2.normalizeKnots.degree < c1.normalizeKnots.degree then
        degreeElevate g fuel eps tol init junk c2.normalizeKnots (c1.normalizeKnots.degree - c2.normalizeKnots.degree)
        else some (some c2.normalizeKnots)) = some (some f2) := by
      rw [← b1]
      by_cases q : c2.degree < c1.degree
      · exact (if_pos q).trans (if_pos (by omega)).symm
      · exact (if_neg q).trans (if_neg (by omega)).symm
    rw [makeCompatible]
    dsimp only
    rw [e1, e2]
    dsimp only
    rw [← hks, p1, q1]
  obtain ⟨S, hS⟩ : ∃ S : Surf K, S = { pu := r1.degree, pv := 1, nu := r1.n, nv := 2, mu := r1.m, mv := 4, U := r1.U, V := fun i => if i < 2 then 0 else 1, P := fun i j => if j = 0 then r1.P i else r2.P i } := ⟨_, rfl⟩
  have hruled : ruled g close fuel eps tol init junk c1 c2 = some (some S) := by
    rw [ruled, hcompat, hS]
    dsimp only
    rw [if_neg (by omega)]
  have rlo : r1.U r1.degree = 0 := by rw [p3.lo, a5, l1]
  have rhi : r1.U r1.n = 1 := by rw [p3.hi, a6, u1]
  have rlo2 : r2.U r2.degree = 0 := by rw [q3.lo, b5, l2]
  have rhi2 : r2.U r2.n = 1 := by rw [q3.hi, b6, u2]
  have hSV : SValid S := by
    rw [hS]
    refine ⟨⟨p3.valid.npos, p3.valid.knots, p3.valid.mono, p3.valid.last⟩, ⟨show 1 < 2 by omega, rfl, ?_, ?_⟩⟩
    · refine monoUpTo_of_step _ _ fun a _ => ?_
      change (if a < 2 then (0 : K) else 1) ≤ if a + 1 < 2 then 0 else 1
      split_ifs
      · exact le_refl _
      · exact zero_le_one
      · omega
      · exact le_refl _
    · change (if 2 - 1 < 2 then (0 : K) else 1) < if 2 < 2 then 0 else 1
      norm_num
  have hnf : r1.n ≤ fuel := by
    have e1 : (knotList r1).length = r1.m := by simp [knotList]
    rw [p2] at e1
    omega
  have hks4 : 4 ≤ fuel := by
    have := h1.valid.knots
    have := h1.deg
    have := h1.valid.npos
    omega
  refine ⟨S, hruled, hSV, by rw [hS]; change r1.degree = _; rw [p3.degree, a4']; omega, by rw [hS], by rw [hS]; exact rlo,
    by rw [hS]; exact rhi, by rw [hS]; rfl, by rw [hS]; rfl, fun u hu0 hu1 v hv0 hv1 col => ?_⟩
  have hc : ∀ c : Curve K, Clamped c → 0 ≤ u → u ≤ 1 → c.U c.degree ≤ atUnit c u ∧ atUnit c u ≤ c.U c.n := by
    intro c h _ _
    have := h.width
    rw [h.lo, h.hi] at this
    constructor
    · rw [atUnit, le_add_iff_nonneg_right]; exact mul_nonneg hu0 (le_of_lt this)
    · rw [atUnit]
      have := mul_le_mul_of_nonneg_right hu1 (le_of_lt this)
      linarith
  have hcn1 : c1.n ≤ fuel := by have := h1.valid.knots; omega
  have hcn2 : c2.n ≤ fuel := by have := h2.valid.knots; omega
  refine ⟨specVal c1 (fun l => c1.P l col) (atUnit c1 u), specVal c2 (fun l => c2.P l col) (atUnit c2 u),
    evaluate_equal_weights c1 h1.valid h1.nonper w hw0 hw1 fuel hcn1 _ (hc c1 h1 hu0 hu1).1 (hc c1 h1 hu0 hu1).2 col,
    evaluate_equal_weights c2 h2.valid h2.nonper w hw0 hw2 fuel hcn2 _ (hc c2 h2 hu0 hu1).1 (hc c2 h2 hu0 hu1).2 col, ?_⟩
  have hin : InDom S u v := by
    rw [hS]
    exact ⟨le_of_eq_of_le rlo hu0, le_of_le_of_eq hu1 rhi.symm, hv0, hv1⟩
  rw [(C61_surface_evaluate S hSV fuel (by rw [hS]; exact hnf) (by rw [hS]; change 2 ≤ fuel; omega) u v hin).1 col]
  have hsum : ∀ col, ∑ i ∈ range S.nu, ∑ j ∈ range S.nv, bspl S.U S.nu u S.pu i * bspl S.V S.nv v S.pv j * S.P i j col =
      (1 - v) * specVal r1 (fun l => r1.P l col) u + v * specVal r2 (fun l => r2.P l col) u := by
    intro col
    obtain ⟨g0, g1⟩ := linear_basis v hv0 hv1 S.V (by rw [hS])
    rw [specVal, specVal, mul_sum, mul_sum, ← hrn, ← sum_add_distrib, hS]
    rw [hS] at g0 g1
    dsimp only at g0 g1 ⊢
    refine sum_congr rfl fun i hi => ?_
    have hi' := mem_range.mp hi
    rw [sum_range_succ, sum_range_succ, sum_range_zero, g0, g1, ← hrd,
      ← bspl_congr r1.U r2.U r1.n r1.m u hrU (by omega) r1.degree i (by omega)]
    simp only [zero_add, if_true, one_ne_zero, if_false]
    ring
  have e1 : ∀ col, specVal r1 (fun l => r1.P l col) u = specVal c1 (fun l => c1.P l col) (atUnit c1 u) := by
    intro col
    rw [p3.cols u (by rw [a5, l1]; exact hu0) (by rw [a6, u1]; exact hu1), a7 u (by rw [l1]; exact hu0) (by rw [u1]; exact hu1)]
    exact v1 _ u
  have e2 : ∀ col, specVal r2 (fun l => r2.P l col) u = specVal c2 (fun l => c2.P l col) (atUnit c2 u) := by
    intro col
    rw [q3.cols u (by rw [b5, l2]; exact hu0) (by rw [b6, u2]; exact hu1), b7 u (by rw [l2]; exact hu0) (by rw [u2]; exact hu1)]
    exact v2 _ u
  rw [hsum, hsum 3, e1 col, e2 col,
    specVal_one_weight r1 p3.valid w (p3.weights w (a8 w hw1)) u (by rw [rlo]; exact hu0) (by rw [rhi]; exact hu1),
    specVal_one_weight r2 q3.valid w (q3.weights w (b8 w hw2)) u (by rw [rlo2]; exact hu0) (by rw [rhi2]; exact hu1)]
  congr 2
  ring

/-- **C247, partial.** For curves with all weights 1 the surface is the linear interpolation between the two curves, each at
the parameter `u` of its domain scaled to `[0, 1]`. -/
theorem C247_ruled_partial (g : Nat → K) (close : K → K → Bool) (c1 c2 : Curve K) (h1 : Clamped c1) (h2 : Clamped c2)
    (d1 : c1.degree ≤ 30) (d2 : c2.degree ≤ 30) (fuel : Nat) (hf : (c1.m + c2.m) * 31 ≤ fuel)
    (eps : K → K) (heps : ∀ y, 0 ≤ eps y) (tol : K) (htol : 0 ≤ tol)
    (cut1 : Cuttable c1.normalizeKnots eps tol) (cut2 : Cuttable c2.normalizeKnots eps tol)
    (hsep : ∀ x ∈ knotList c1.normalizeKnots ++ knotList c2.normalizeKnots,
      ∀ y ∈ knotList c1.normalizeKnots ++ knotList c2.normalizeKnots, |x - y| ≤ eps y → y = x)
    (hclose : ∀ x ∈ knotList c1.normalizeKnots ++ knotList c2.normalizeKnots,
      ∀ y ∈ knotList c1.normalizeKnots ++ knotList c2.normalizeKnots, close x y = true ↔ x = y)
    (init junk : Nat → Nat → K) (hw1 : ∀ l, l < c1.n → c1.P l 3 = 1) (hw2 : ∀ l, l < c2.n → c2.P l 3 = 1) :
    ∃ S, ruled g close fuel eps tol init junk c1 c2 = some (some S) ∧ SValid S ∧ S.pu = max c1.degree c2.degree ∧ S.pv = 1 ∧
      S.U S.pu = 0 ∧ S.U S.nu = 1 ∧ S.V S.pv = 0 ∧ S.V S.nv = 1 ∧
      ∀ u, 0 ≤ u → u ≤ 1 → ∀ v, 0 ≤ v → v ≤ 1 → ∀ col, ∃ y1 y2, c1.evaluate fuel (atUnit c1 u) col = some y1 ∧
        c2.evaluate fuel (atUnit c2 u) col = some y2 ∧ S.evaluate fuel u v col = some ((1 - v) * y1 + v * y2) := by
  obtain ⟨S, s1, s2, s3, s4, s5, s6, s7, s8, s9⟩ := C247_ruled_value g close c1 c2 h1 h2 d1 d2 fuel hf eps heps tol htol cut1 cut2
    hsep hclose init junk 1 one_ne_zero hw1 hw2
  refine ⟨S, s1, s2, s3, s4, s5, s6, s7, s8, fun u hu0 hu1 v hv0 hv1 col => ?_⟩
  obtain ⟨y1, y2, t1, t2, t3⟩ := s9 u hu0 hu1 v hv0 hv1 col
  exact ⟨y1, y2, t1, t2, by rw [t3, div_one]⟩

/-- **C247, refuted part.** For curves with all weights equal to some `w ≠ 1` (so the same points as with weights 1) the edge
`v = 0` of the surface misses every point of the first curve that has a coordinate different from 0: the curve stores points
and weights, the surface reads the same rows as homogeneous coordinates. -/
theorem C247_weights_refuted (g : Nat → K) (close : K → K → Bool) (c1 c2 : Curve K) (h1 : Clamped c1) (h2 : Clamped c2)
    (d1 : c1.degree ≤ 30) (d2 : c2.degree ≤ 30) (fuel : Nat) (hf : (c1.m + c2.m) * 31 ≤ fuel)
    (eps : K → K) (heps : ∀ y, 0 ≤ eps y) (tol : K) (htol : 0 ≤ tol)
    (cut1 : Cuttable c1.normalizeKnots eps tol) (cut2 : Cuttable c2.normalizeKnots eps tol)
    (hsep : ∀ x ∈ knotList c1.normalizeKnots ++ knotList c2.normalizeKnots,
      ∀ y ∈ knotList c1.normalizeKnots ++ knotList c2.normalizeKnots, |x - y| ≤ eps y → y = x)
    (hclose : ∀ x ∈ knotList c1.normalizeKnots ++ knotList c2.normalizeKnots,
      ∀ y ∈ knotList c1.normalizeKnots ++ knotList c2.normalizeKnots, close x y = true ↔ x = y)
    (init junk : Nat → Nat → K) (w : K) (hw0 : w ≠ 0) (hw' : w ≠ 1) (hw1 : ∀ l, l < c1.n → c1.P l 3 = w)
    (hw2 : ∀ l, l < c2.n → c2.P l 3 = w) :
    ∃ S, ruled g close fuel eps tol init junk c1 c2 = some (some S) ∧
      ∀ u, 0 ≤ u → u ≤ 1 → ∀ col, c1.evaluate fuel (atUnit c1 u) col ≠ some 0 →
        S.evaluate fuel u 0 col ≠ c1.evaluate fuel (atUnit c1 u) col := by
  obtain ⟨S, s1, _, _, _, _, _, _, _, s9⟩ := C247_ruled_value g close c1 c2 h1 h2 d1 d2 fuel hf eps heps tol htol cut1 cut2
    hsep hclose init junk w hw0 hw1 hw2
  refine ⟨S, s1, fun u hu0 hu1 col hne he => ?_⟩
  obtain ⟨y1, y2, t1, _, t3⟩ := s9 u hu0 hu1 0 (le_refl _) zero_le_one col
  rw [t3, t1, Option.some.injEq, sub_zero, one_mul, zero_mul, add_zero, div_eq_iff hw0] at he
  refine hne ?_
  rw [t1]
  congr 1
  by_contra hy
  exact hw' (mul_left_cancel₀ hy (by rw [mul_one]; exact he.symm))

/-- A polyline of two segments on `[0, 4]` with weights `w` (examples). -/
def exLine (w : ℚ) : Curve ℚ where
  degree := 1
  n := 3
  P := fun i col => if col = 3 then w else if col = 0 then 3 * i else if col = 1 then 1 else 0
  m := 5
  U := kvec [0, 0, 2, 4, 4]
  periodic := false

/-- `exPoly` with weights `w` (examples). -/
def exPolyW (w : ℚ) : Curve ℚ := { exPoly with P := fun i col => if col = 3 then w else exPoly.P i col }

/-- The hypotheses for a curve of degree 2 on `[0, 3]` and a polyline on `[0, 4]`, and the two theorems on them. -/
example (w : ℚ) : Clamped (exPolyW w) ∧ Clamped (exLine w) ∧
    Cuttable (exPolyW w).normalizeKnots (fun _ => 1 / 100) (1 / 100) ∧ Cuttable (exLine w).normalizeKnots (fun _ => 1 / 100) (1 / 100) ∧
    (∀ x ∈ knotList (exPolyW w).normalizeKnots ++ knotList (exLine w).normalizeKnots,
      ∀ y ∈ knotList (exPolyW w).normalizeKnots ++ knotList (exLine w).normalizeKnots, |x - y| ≤ 1 / 100 → y = x) := by
  have e1 : Clamped (exPolyW w) := clamped_check (exPolyW 1) (by decide +kernel) |> fun h =>
    ⟨⟨h.valid.npos, h.valid.knots, h.valid.mono, h.valid.last⟩, h.deg, h.nonper, h.lo, h.hi, h.start⟩
  have e2 : Clamped (exLine w) := clamped_check (exLine 1) (by decide +kernel) |> fun h =>
    ⟨⟨h.valid.npos, h.valid.knots, h.valid.mono, h.valid.last⟩, h.deg, h.nonper, h.lo, h.hi, h.start⟩
  have e3 : Cuttable (exPolyW 1).normalizeKnots (fun _ => 1 / 100) (1 / 100) := cuttable_check _ _ _ (by decide +kernel)
  have e4 : Cuttable (exLine 1).normalizeKnots (fun _ => 1 / 100) (1 / 100) := cuttable_check _ _ _ (by decide +kernel)
  have e5 : ∀ x ∈ knotList (exPolyW 1).normalizeKnots ++ knotList (exLine 1).normalizeKnots,
      ∀ y ∈ knotList (exPolyW 1).normalizeKnots ++ knotList (exLine 1).normalizeKnots, |x - y| ≤ 1 / 100 → y = x := by
    decide +kernel
  exact ⟨e1, e2, ⟨e3.deg, e3.noJump, e3.start, e3.gap, e3.sep⟩, ⟨e4.deg, e4.noJump, e4.start, e4.gap, e4.sep⟩, e5⟩

/-- With weights 1 the point at (1/2, 1/4) is the interpolation; with weights 2 it is half of it. -/
example : let close : ℚ → ℚ → Bool := fun a b => |a - b| ≤ 1 / 100
    let S := fun w => ((ruled (fun _ => 7) close 434 (fun _ => 1 / 100) (1 / 100) (fun _ _ => 5) (fun _ _ => 6) (exPolyW w)
      (exLine w)).map (Option.map fun S => (S.pu, (List.range S.mu).map S.U, S.evaluate 434 (1 / 2) (1 / 4) 1)))
    (exPolyW 1).evaluate 434 (atUnit (exPolyW 1) (1 / 2)) 1 = some (23 / 4) ∧
    (exLine 1).evaluate 434 (atUnit (exLine 1) (1 / 2)) 1 = some 1 ∧
    S 1 = some (some (2, [0, 0, 0, 1 / 3, 1 / 3, 1 / 2, 1 / 2, 2 / 3, 1, 1, 1], some (3 / 4 * (23 / 4) + 1 / 4))) ∧
    S 2 = some (some (2, [0, 0, 0, 1 / 3, 1 / 3, 1 / 2, 1 / 2, 2 / 3, 1, 1, 1], some ((3 / 4 * (23 / 4) + 1 / 4) / 2))) := by
  decide +kernel

end Verif.Knot
