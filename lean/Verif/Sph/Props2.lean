import Verif.Sph.Props
import Verif.Poly.Props3

/-! # C424: a line along a side is enough -/

set_option linter.unusedSectionVars false

namespace Verif.Sph

variable {K : Type} [Field K] [LinearOrder K] [IsStrictOrderedRing K]

/-- The product of two vectors of the plane that is positive for a turn to the left. -/
def cr (u v : K × K) : K := u.1 * v.2 - u.2 * v.1

/-- The vector turned to the right. -/
def rot (e : K × K) : K × K := (e.2, -e.1)

theorem of_scale {c s : K} {d r : K × K} (hc : 0 < c) (hs : 0 ≤ s) (hd : d ≠ (0, 0)) (h1 : c * d.1 = s * r.1) (h2 : c * d.2 = s * r.2) :
    0 < s := by
  rcases hs.lt_or_eq with h | h
  · exact h
  · exfalso
    rw [← h, zero_mul] at h1 h2
    exact hd (Prod.ext ((mul_eq_zero.1 h1).resolve_left hc.ne') ((mul_eq_zero.1 h2).resolve_left hc.ne'))

theorem sgn_nonneg {c s x y : K} (hc : 0 < c) (hs : 0 < s) (h : s * y = c * x) (hx : 0 ≤ x) : 0 ≤ y := by
  rw [← mul_nonneg_iff_of_pos_left hs, h]; exact mul_nonneg hc.le hx

theorem sgn_nonpos {c s x y : K} (hc : 0 < c) (hs : 0 < s) (h : s * y = c * x) (hx : x ≤ 0) : y ≤ 0 := by
  have := sgn_nonneg (x := -x) (y := -y) hc hs (by linarith) (by linarith)
  linarith

/-- The vector `r` is in the cones of directions in which the corner `e1, e2` is the farthest and the corner `f1, f2` the nearest. -/
def Both (e1 e2 f1 f2 r : K × K) : Prop := 0 ≤ dot2 r e1 ∧ dot2 r e2 ≤ 0 ∧ dot2 r f1 ≤ 0 ∧ 0 ≤ dot2 r f2

theorem both_scale {e1 e2 f1 f2 d r : K × K} {c s : K} (hc : 0 < c) (hs : 0 ≤ s) (hd : d ≠ (0, 0)) (h1 : c * d.1 = s * r.1)
    (h2 : c * d.2 = s * r.2) (hb : Both e1 e2 f1 f2 d) {x : K × K} (hx : 0 ≤ dot2 x d) : Both e1 e2 f1 f2 r ∧ 0 ≤ dot2 x r := by
  have hs := of_scale hc hs hd h1 h2
  obtain ⟨b1, b2, b3, b4⟩ := hb
  have k : ∀ e : K × K, s * dot2 r e = c * dot2 d e := by
    intro e; unfold dot2; linear_combination -e.1 * h1 - e.2 * h2
  have kx : s * dot2 x r = c * dot2 x d := by
    unfold dot2; linear_combination -x.1 * h1 - x.2 * h2
  exact ⟨⟨sgn_nonneg hc hs (k e1) b1, sgn_nonpos hc hs (k e2) b2, sgn_nonpos hc hs (k f1) b3, sgn_nonneg hc hs (k f2) b4⟩,
    sgn_nonneg hc hs kx hx⟩

/-- The heart of the matter: between two corners, some normal of one of the four sides separates if any direction does. -/
theorem corners {e1 e2 f1 f2 d x : K × K} (he : 0 < cr e1 e2) (hf : 0 < cr f1 f2) (hd : d ≠ (0, 0)) (hb : Both e1 e2 f1 f2 d)
    (hx : 0 ≤ dot2 x d) :
    ∃ r, (r = rot e1 ∨ r = rot e2 ∨ r = (-(rot f1).1, -(rot f1).2) ∨ r = (-(rot f2).1, -(rot f2).2)) ∧ Both e1 e2 f1 f2 r ∧
      0 ≤ dot2 x r := by
  have hb' := hb
  obtain ⟨b1, b2, b3, b4⟩ := hb'
  by_cases z1 : dot2 d e1 = 0
  · refine ⟨rot e1, Or.inl rfl, both_scale he (s := -dot2 d e2) (by linarith) hd ?_ ?_ hb hx⟩
    · unfold dot2 at *; unfold cr rot; linear_combination e2.2 * z1
    · unfold dot2 at *; unfold cr rot; linear_combination -e2.1 * z1
  by_cases z2 : dot2 d e2 = 0
  · refine ⟨rot e2, Or.inr (Or.inl rfl), both_scale he (s := dot2 d e1) b1 hd ?_ ?_ hb hx⟩
    · unfold dot2 at *; unfold cr rot; linear_combination -e1.2 * z2
    · unfold dot2 at *; unfold cr rot; linear_combination e1.1 * z2
  by_cases z3 : dot2 d f1 = 0
  · refine ⟨_, Or.inr (Or.inr (Or.inl rfl)), both_scale hf (s := dot2 d f2) b4 hd ?_ ?_ hb hx⟩
    · unfold dot2 at *; unfold cr rot; linear_combination f2.2 * z3
    · unfold dot2 at *; unfold cr rot; linear_combination -f2.1 * z3
  by_cases z4 : dot2 d f2 = 0
  · refine ⟨_, Or.inr (Or.inr (Or.inr rfl)), both_scale hf (s := -dot2 d f1) (by linarith) hd ?_ ?_ hb hx⟩
    · unfold dot2 at *; unfold cr rot; linear_combination -f1.2 * z4
    · unfold dot2 at *; unfold cr rot; linear_combination f1.1 * z4
  have p1 : 0 < dot2 d e1 := lt_of_le_of_ne b1 (Ne.symm z1)
  have p2 : dot2 d e2 < 0 := lt_of_le_of_ne b2 z2
  have p3 : dot2 d f1 < 0 := lt_of_le_of_ne b3 z3
  have p4 : 0 < dot2 d f2 := lt_of_le_of_ne b4 (Ne.symm z4)
  -- a vector written in terms of two others
  have cram : ∀ u v w : K × K, cr u v * dot2 d w = cr w v * dot2 d u + cr u w * dot2 d v := by
    intro u v w; unfold cr dot2; ring
  -- on the left of `d`
  have R2 : ∃ r, (r = rot e2 ∨ r = (-(rot f2).1, -(rot f2).2)) ∧ Both e1 e2 f1 f2 r ∧ 0 < cr d r := by
    by_cases h : 0 ≤ cr f2 e2
    · have hle : cr f1 e2 ≤ 0 := by
        by_contra hcon
        push Not at hcon
        have := cram f1 f2 e2
        have e : cr e2 f2 = -cr f2 e2 := by unfold cr; ring
        rw [e] at this
        have t1 : -cr f2 e2 * dot2 d f1 ≥ 0 := mul_nonneg_of_nonpos_of_nonpos (by linarith) p3.le
        have t2 := mul_pos hcon p4
        have t3 := mul_neg_of_pos_of_neg hf p2
        linarith
      refine ⟨rot e2, Or.inl rfl, ⟨?_, ?_, ?_, ?_⟩, ?_⟩
      · have : dot2 (rot e2) e1 = cr e1 e2 := by unfold dot2 rot cr; ring
        rw [this]; exact he.le
      · have : dot2 (rot e2) e2 = 0 := by unfold dot2 rot; ring
        rw [this]
      · have : dot2 (rot e2) f1 = cr f1 e2 := by unfold dot2 rot cr; ring
        rw [this]; exact hle
      · have : dot2 (rot e2) f2 = cr f2 e2 := by unfold dot2 rot cr; ring
        rw [this]; exact h
      · have : cr d (rot e2) = -dot2 d e2 := by unfold dot2 rot cr; ring
        rw [this]; linarith
    · push Not at h
      have hle : cr e1 f2 ≤ 0 := by
        by_contra hcon
        push Not at hcon
        have := cram e1 e2 f2
        have t1 := mul_neg_of_neg_of_pos h p1
        have t2 := mul_neg_of_pos_of_neg hcon p2
        have t3 := mul_pos he p4
        linarith
      refine ⟨_, Or.inr rfl, ⟨?_, ?_, ?_, ?_⟩, ?_⟩
      · have : dot2 (-(rot f2).1, -(rot f2).2) e1 = -cr e1 f2 := by unfold dot2 rot cr; ring
        rw [this]; linarith
      · have : dot2 (-(rot f2).1, -(rot f2).2) e2 = cr f2 e2 := by unfold dot2 rot cr; ring
        rw [this]; exact h.le
      · have : dot2 (-(rot f2).1, -(rot f2).2) f1 = -cr f1 f2 := by unfold dot2 rot cr; ring
        rw [this]; linarith
      · have : dot2 (-(rot f2).1, -(rot f2).2) f2 = 0 := by unfold dot2 rot; ring
        rw [this]
      · have : cr d (-(rot f2).1, -(rot f2).2) = dot2 d f2 := by unfold dot2 rot cr; ring
        rw [this]; exact p4
  -- on the right of `d`
  have R1 : ∃ r, ((r = rot e1 ∧ ∀ r', Both e1 e2 f1 f2 r' → 0 ≤ cr r r') ∨
      (r = (-(rot f1).1, -(rot f1).2) ∧ ∀ r', Both e1 e2 f1 f2 r' → 0 ≤ cr r r')) ∧ Both e1 e2 f1 f2 r ∧ 0 < cr r d := by
    by_cases h : cr f1 e1 ≤ 0
    · have hle : 0 ≤ cr f2 e1 := by
        by_contra hcon
        push Not at hcon
        have := cram f1 f2 e1
        have e : cr e1 f2 = -cr f2 e1 := by unfold cr; ring
        rw [e] at this
        have t1 : -cr f2 e1 * dot2 d f1 < 0 := mul_neg_of_pos_of_neg (by linarith) p3
        have t2 := mul_nonpos_of_nonpos_of_nonneg h p4.le
        have t3 := mul_pos hf p1
        linarith
      refine ⟨rot e1, Or.inl ⟨rfl, fun r' hr' => ?_⟩, ⟨?_, ?_, ?_, ?_⟩, ?_⟩
      · have : cr (rot e1) r' = dot2 r' e1 := by unfold dot2 rot cr; ring
        rw [this]; exact hr'.1
      · have : dot2 (rot e1) e1 = 0 := by unfold dot2 rot; ring
        rw [this]
      · have : dot2 (rot e1) e2 = -cr e1 e2 := by unfold dot2 rot cr; ring
        rw [this]; linarith
      · have : dot2 (rot e1) f1 = cr f1 e1 := by unfold dot2 rot cr; ring
        rw [this]; exact h
      · have : dot2 (rot e1) f2 = cr f2 e1 := by unfold dot2 rot cr; ring
        rw [this]; exact hle
      · have : cr (rot e1) d = dot2 d e1 := by unfold dot2 rot cr; ring
        rw [this]; exact p1
    · push Not at h
      have hle : 0 ≤ cr e2 f1 := by
        by_contra hcon
        push Not at hcon
        have := cram e1 e2 f1
        have e : cr f1 e2 = -cr e2 f1 := by unfold cr; ring
        have e' : cr e1 f1 = -cr f1 e1 := by unfold cr; ring
        rw [e, e'] at this
        have t1 : 0 < -cr e2 f1 * dot2 d e1 := mul_pos (by linarith) p1
        have t2 : 0 < -cr f1 e1 * dot2 d e2 := mul_pos_of_neg_of_neg (by linarith) p2
        have t3 := mul_neg_of_pos_of_neg he p3
        linarith
      refine ⟨_, Or.inr ⟨rfl, fun r' hr' => ?_⟩, ⟨?_, ?_, ?_, ?_⟩, ?_⟩
      · have : cr (-(rot f1).1, -(rot f1).2) r' = -dot2 r' f1 := by unfold dot2 rot cr; ring
        rw [this]; linarith [hr'.2.2.1]
      · have : dot2 (-(rot f1).1, -(rot f1).2) e1 = cr f1 e1 := by unfold dot2 rot cr; ring
        rw [this]; exact h.le
      · have : dot2 (-(rot f1).1, -(rot f1).2) e2 = -cr e2 f1 := by unfold dot2 rot cr; ring
        rw [this]; linarith
      · have : dot2 (-(rot f1).1, -(rot f1).2) f1 = 0 := by unfold dot2 rot; ring
        rw [this]
      · have : dot2 (-(rot f1).1, -(rot f1).2) f2 = cr f1 f2 := by unfold dot2 rot cr; ring
        rw [this]; exact hf.le
      · have : cr (-(rot f1).1, -(rot f1).2) d = -dot2 d f1 := by unfold dot2 rot cr; ring
        rw [this]; linarith
  obtain ⟨r2, m2, c2, q2⟩ := R2
  obtain ⟨r1, m1, c1, q1⟩ := R1
  have hpos : 0 ≤ cr r1 r2 := by
    rcases m1 with ⟨-, h⟩ | ⟨-, h⟩ <;> exact h r2 c2
  have key : cr r1 r2 * dot2 x d = cr d r2 * dot2 x r1 + cr r1 d * dot2 x r2 := by unfold cr dot2; ring
  rcases le_or_gt 0 (dot2 x r1) with h | h
  · refine ⟨r1, ?_, c1, h⟩
    rcases m1 with ⟨rfl, -⟩ | ⟨rfl, -⟩
    · exact Or.inl rfl
    · exact Or.inr (Or.inr (Or.inl rfl))
  · refine ⟨r2, ?_, c2, ?_⟩
    · rcases m2 with rfl | rfl
      · exact Or.inr (Or.inl rfl)
      · exact Or.inr (Or.inr (Or.inr rfl))
    · by_contra hcon
      push Not at hcon
      have t1 := mul_neg_of_pos_of_neg q2 h
      have t2 := mul_neg_of_pos_of_neg q1 hcon
      have t3 := mul_nonneg hpos hx
      linarith

/-- The vertices go around to the left: any three of them, in the order of the list, turn to the left. -/
def LeftConvex (h : List (K × K)) : Prop :=
  ∀ (i j k : Nat) (p q r : K × K), i < j → j < k → h[i]? = some p → h[j]? = some q → h[k]? = some r → 0 < Poly.cross p q r

theorem side_pos {h : List (K × K)} (hc : LeftConvex h) {i j : Nat} (hi : i < h.length) (hj : j < h.length)
    (hn : (i + 1) % h.length < h.length) (h1 : j ≠ i) (h2 : j ≠ (i + 1) % h.length) :
    0 < Poly.cross h[i] (h[(i + 1) % h.length]) h[j] := by
  have g : ∀ (a b c : Nat) (ha : a < h.length) (hb : b < h.length) (hcc : c < h.length), a < b → b < c → 0 < Poly.cross h[a] h[b] h[c] :=
    fun a b c ha hb hcc hab hbc => hc a b c _ _ _ hab hbc (List.getElem?_eq_getElem ha) (List.getElem?_eq_getElem hb) (List.getElem?_eq_getElem hcc)
  by_cases hlast : i + 1 < h.length
  · have e : (i + 1) % h.length = i + 1 := Nat.mod_eq_of_lt hlast
    simp only [e] at h2 ⊢
    rcases Nat.lt_or_ge j i with hji | hji
    · have := g j i (i + 1) hj hi hlast hji (Nat.lt_succ_self i)
      have cyc : Poly.cross h[i] h[i + 1] h[j] = Poly.cross h[j] h[i] h[i + 1] := by unfold Poly.cross; ring
      rw [cyc]; exact this
    · exact g i (i + 1) j hi hlast hj (Nat.lt_succ_self i) (by omega)
  · have e0 : i + 1 = h.length := by omega
    have e : (i + 1) % h.length = 0 := by rw [e0]; exact Nat.mod_self _
    simp only [e] at h2 ⊢
    have := g 0 j i (by omega) hj hi (by omega) (by omega)
    have cyc : Poly.cross h[i] h[0] h[j] = Poly.cross h[0] h[j] h[i] := by unfold Poly.cross; ring
    rw [cyc]; exact this

theorem side_nonneg {h : List (K × K)} (hc : LeftConvex h) {i : Nat} (hi : i < h.length) (hn : (i + 1) % h.length < h.length) {p : K × K}
    (hp : p ∈ h) : 0 ≤ Poly.cross h[i] (h[(i + 1) % h.length]) p := by
  obtain ⟨j, hj, rfl⟩ := List.mem_iff_getElem.1 hp
  by_cases h1 : j = i
  · subst h1; apply le_of_eq; unfold Poly.cross; ring
  by_cases h2 : j = (i + 1) % h.length
  · subst h2; apply le_of_eq; unfold Poly.cross; ring
  · exact (side_pos hc hi hj hn h1 h2).le

/-- A corner of a polygon: the vectors of the side that ends there and of the side that starts there. -/
theorem corner_of {h : List (K × K)} (hc : LeftConvex h) (h3 : 3 ≤ h.length) {a : K × K} (ha : a ∈ h) :
    ∃ e1 e2 : K × K, 0 < cr e1 e2 ∧ IsSide h (-(rot e1).1, -(rot e1).2) ∧ IsSide h (-(rot e2).1, -(rot e2).2) ∧
      (a.1 - e1.1, a.2 - e1.2) ∈ h ∧ (a.1 + e2.1, a.2 + e2.2) ∈ h ∧
      ∀ p ∈ h, 0 ≤ cr e1 (p.1 - a.1, p.2 - a.2) ∧ 0 ≤ cr e2 (p.1 - a.1, p.2 - a.2) := by
  obtain ⟨i, hi, rfl⟩ := List.mem_iff_getElem.1 ha
  obtain ⟨k, hk, hki, hne⟩ : ∃ k, k < h.length ∧ (k + 1) % h.length = i ∧ k ≠ (i + 1) % h.length := by
    rcases Nat.eq_zero_or_pos i with h0 | h0
    · refine ⟨h.length - 1, by omega, ?_, ?_⟩
      · rw [show h.length - 1 + 1 = h.length by omega, Nat.mod_self, h0]
      · rw [h0, Nat.mod_eq_of_lt (by omega)]; omega
    · refine ⟨i - 1, by omega, ?_, ?_⟩
      · rw [show i - 1 + 1 = i by omega]; exact Nat.mod_eq_of_lt hi
      · by_cases hl : i + 1 < h.length
        · rw [Nat.mod_eq_of_lt hl]; omega
        · rw [show i + 1 = h.length by omega, Nat.mod_self]; omega
  have hn : (i + 1) % h.length < h.length := Nat.mod_lt _ (by omega)
  have hkn : (k + 1) % h.length < h.length := Nat.mod_lt _ (by omega)
  have hni : (i + 1) % h.length ≠ i := by
    by_cases hl : i + 1 < h.length
    · rw [Nat.mod_eq_of_lt hl]; omega
    · rw [show i + 1 = h.length by omega, Nat.mod_self]; omega
  have s1 := fun p hp => side_nonneg hc hk hkn (p := p) hp
  have s2 := fun p hp => side_nonneg hc hi hn (p := p) hp
  have s3 := side_pos hc hk hn hkn (Ne.symm hne) (by rw [hki]; exact hni)
  have i1 : IsSide h (h[k].2 - (h[(k + 1) % h.length]).2, -(h[k].1 - (h[(k + 1) % h.length]).1)) := ⟨k, hk, hkn, Or.inr rfl⟩
  have i2 : IsSide h (h[i].2 - (h[(i + 1) % h.length]).2, -(h[i].1 - (h[(i + 1) % h.length]).1)) := ⟨i, hi, hn, Or.inr rfl⟩
  have m1 : h[k] ∈ h := List.getElem_mem hk
  have m2 : h[(i + 1) % h.length] ∈ h := List.getElem_mem hn
  simp only [hki] at s1 s3 i1
  generalize h[(i + 1) % h.length] = nx at *
  generalize h[k] = pv at *
  generalize h[i] = a at *
  refine ⟨(a.1 - pv.1, a.2 - pv.2), (nx.1 - a.1, nx.2 - a.2), ?_, ?_, ?_, ?_, ?_, ?_⟩
  · have : cr (a.1 - pv.1, a.2 - pv.2) (nx.1 - a.1, nx.2 - a.2) = Poly.cross pv a nx := by unfold cr Poly.cross; ring
    rw [this]; exact s3
  · have : (-(rot (a.1 - pv.1, a.2 - pv.2)).1, -(rot (a.1 - pv.1, a.2 - pv.2)).2) = (pv.2 - a.2, -(pv.1 - a.1)) := by
      unfold rot; ext <;> simp
    rw [this]; exact i1
  · have : (-(rot (nx.1 - a.1, nx.2 - a.2)).1, -(rot (nx.1 - a.1, nx.2 - a.2)).2) = (a.2 - nx.2, -(a.1 - nx.1)) := by
      unfold rot; ext <;> simp
    rw [this]; exact i2
  · have : (a.1 - (a.1 - pv.1, a.2 - pv.2).1, a.2 - (a.1 - pv.1, a.2 - pv.2).2) = pv := by ext <;> simp
    rw [this]; exact m1
  · have : (a.1 + (nx.1 - a.1, nx.2 - a.2).1, a.2 + (nx.1 - a.1, nx.2 - a.2).2) = nx := by ext <;> simp
    rw [this]; exact m2
  · intro p hp
    constructor
    · have : cr (a.1 - pv.1, a.2 - pv.2) (p.1 - a.1, p.2 - a.2) = Poly.cross pv a p := by unfold cr Poly.cross; ring
      rw [this]; exact s1 p hp
    · have : cr (nx.1 - a.1, nx.2 - a.2) (p.1 - a.1, p.2 - a.2) = Poly.cross a nx p := by unfold cr Poly.cross; ring
      rw [this]; exact s2 p hp

theorem exists_max (d : K × K) {h : List (K × K)} (hne : h ≠ []) : ∃ a ∈ h, ∀ p ∈ h, dot2 p d ≤ dot2 a d := by
  obtain ⟨x, l, rfl⟩ := List.exists_cons_of_ne_nil hne
  have h1 := hi_mem (l.map (dot2 · d)) (dot2 x d)
  obtain ⟨g1, g2⟩ := le_hi (l.map (dot2 · d)) (dot2 x d)
  rw [show dot2 x d :: l.map (dot2 · d) = (x :: l).map (dot2 · d) from rfl, List.mem_map] at h1
  obtain ⟨a, ha, e⟩ := h1
  refine ⟨a, ha, fun p hp => ?_⟩
  rw [e]
  rcases List.mem_cons.1 hp with rfl | h
  · exact g1
  · exact g2 _ (List.mem_map.2 ⟨p, h, rfl⟩)

/-- Local to global: if a direction has no corner next to `a` beyond `a`, the whole polygon is not beyond `a`. -/
theorem corner_max {e1 e2 r w : K × K} (he : 0 < cr e1 e2) (w1 : 0 ≤ cr e1 w) (w2 : 0 ≤ cr e2 w) (h1 : 0 ≤ dot2 r e1) (h2 : dot2 r e2 ≤ 0) :
    dot2 r w ≤ 0 := by
  have key : cr e1 e2 * dot2 r w = -cr e2 w * dot2 r e1 + cr e1 w * dot2 r e2 := by unfold cr dot2; ring
  have t1 := mul_nonneg w2 h1
  have t2 := mul_nonpos_of_nonneg_of_nonpos w1 h2
  by_contra hcon
  push Not at hcon
  have := mul_pos he hcon
  linarith

theorem dot2_neg (v d : K × K) : dot2 v (-d.1, -d.2) = -dot2 v d := by unfold dot2; ring

/-- One half of the separating axis theorem. -/
theorem sat_half {h1 h2 : List (K × K)} (c1 : LeftConvex h1) (c2 : LeftConvex h2) (l1 : 3 ≤ h1.length) (l2 : 3 ≤ h2.length) {d : K × K}
    (hd : d ≠ (0, 0)) {c : K} (s1 : ∀ a ∈ h1, dot2 a d ≤ c) (s2 : ∀ b ∈ h2, c ≤ dot2 b d) :
    ∃ r, (IsSide h1 (-r.1, -r.2) ∨ IsSide h2 r) ∧ ∃ c', (∀ a ∈ h1, dot2 a r ≤ c') ∧ ∀ b ∈ h2, c' ≤ dot2 b r := by
  obtain ⟨a, ha, hma⟩ := exists_max d (h := h1) (by rintro rfl; simp at l1)
  obtain ⟨b, hb, hmb⟩ := exists_max (-d.1, -d.2) (h := h2) (by rintro rfl; simp at l2)
  obtain ⟨e1, e2, he, i1, i2, n1, n2, ge⟩ := corner_of c1 l1 ha
  obtain ⟨f1, f2, hf, j1, j2, k1, k2, gf⟩ := corner_of c2 l2 hb
  have hmb' : ∀ q ∈ h2, dot2 b d ≤ dot2 q d := by
    intro q hq
    have := hmb q hq
    rw [dot2_neg, dot2_neg] at this; linarith
  have B : Both e1 e2 f1 f2 d := by
    have a1 := hma _ n1
    have a2 := hma _ n2
    have a3 := hmb' _ k1
    have a4 := hmb' _ k2
    unfold dot2 at a1 a2 a3 a4
    refine ⟨?_, ?_, ?_, ?_⟩ <;> unfold dot2 <;> dsimp only at a1 a2 a3 a4 <;> linarith
  have hx : 0 ≤ dot2 (b.1 - a.1, b.2 - a.2) d := by
    have e : dot2 (b.1 - a.1, b.2 - a.2) d = dot2 b d - dot2 a d := by unfold dot2; ring
    rw [e]; linarith [s1 a ha, s2 b hb]
  obtain ⟨r, hr, ⟨r1, r2, r3, r4⟩, rx⟩ := corners he hf hd B hx
  refine ⟨r, ?_, dot2 a r, ?_, ?_⟩
  · rcases hr with rfl | rfl | rfl | rfl
    · exact Or.inl i1
    · exact Or.inl i2
    · exact Or.inr j1
    · exact Or.inr j2
  · intro p hp
    obtain ⟨w1, w2⟩ := ge p hp
    have := corner_max he w1 w2 r1 r2
    have e : dot2 r (p.1 - a.1, p.2 - a.2) = dot2 p r - dot2 a r := by unfold dot2; ring
    rw [e] at this; linarith
  · intro q hq
    obtain ⟨w1, w2⟩ := gf q hq
    have := corner_max (r := (-r.1, -r.2)) hf w1 w2 (by have : dot2 (-r.1, -r.2) f1 = -dot2 r f1 := by unfold dot2; ring
                                                        rw [this]; linarith)
      (by have : dot2 (-r.1, -r.2) f2 = -dot2 r f2 := by unfold dot2; ring
          rw [this]; linarith)
    have e : dot2 (-r.1, -r.2) (q.1 - b.1, q.2 - b.2) = -(dot2 q r - dot2 b r) := by unfold dot2; ring
    have e' : dot2 (b.1 - a.1, b.2 - a.2) r = dot2 b r - dot2 a r := by unfold dot2; ring
    rw [e] at this; rw [e'] at rx; linarith

theorem SepBy.neg {h1 h2 : List (K × K)} {d : K × K} (h : SepBy d h1 h2) : SepBy (-d.1, -d.2) h1 h2 := by
  obtain ⟨c, ⟨h1, h2⟩ | ⟨h1, h2⟩⟩ := h
  · refine ⟨-c, Or.inr ⟨fun b hb => ?_, fun a ha => ?_⟩⟩
    · rw [dot2_neg]; linarith [h2 b hb]
    · rw [dot2_neg]; linarith [h1 a ha]
  · refine ⟨-c, Or.inl ⟨fun a ha => ?_, fun b hb => ?_⟩⟩
    · rw [dot2_neg]; linarith [h2 a ha]
    · rw [dot2_neg]; linarith [h1 b hb]

theorem no_zero_side {h : List (K × K)} (hc : LeftConvex h) (h3 : 3 ≤ h.length) : ¬ IsSide h (0, 0) := by
  rintro ⟨i, hi, hj, hd⟩
  obtain ⟨k, hk, h1, h2⟩ : ∃ k, k < h.length ∧ k ≠ i ∧ k ≠ (i + 1) % h.length := by
    by_contra hcon
    push Not at hcon
    have a0 := hcon 0 (by omega)
    have a1 := hcon 1 (by omega)
    have a2 := hcon 2 (by omega)
    omega
  have := side_pos hc hi hk hj h1 h2
  have e : h[i] = h[(i + 1) % h.length] := by
    rcases hd with hd | hd
    · rw [Prod.mk.injEq] at hd
      exact Prod.ext (by linarith [hd.1]) (by linarith [hd.2])
    · rw [Prod.mk.injEq] at hd
      exact Prod.ext (by linarith [hd.2]) (by linarith [hd.1])
  rw [← e] at this
  have z : Poly.cross h[i] h[i] h[k] = 0 := by unfold Poly.cross; ring
  rw [z] at this
  exact lt_irrefl _ this

/-- **C424**.  For two polygons of three vertices or more that go around to the left and are strictly convex, `ch2d_sep` says "separable"
exactly if any line of the plane has the polygons on different sides (they may touch it). -/
theorem C424_convex {nrm : K × K → K} (hn : IsNorm2 nrm) {h1 h2 : List (K × K)} (c1 : LeftConvex h1) (c2 : LeftConvex h2)
    (l1 : 3 ≤ h1.length) (l2 : 3 ≤ h2.length) :
    ∃ r, ch2dSep nrm h1 h2 = some r ∧ (r = true ↔ ∃ d, d ≠ (0, 0) ∧ SepBy d h1 h2) := by
  have z1 := no_zero_side c1 l1
  have z2 := no_zero_side c2 l2
  obtain ⟨r, e, hi⟩ := C424_partial hn (h1 := h1) (h2 := h2) (by rintro rfl; simp at l1) (by rintro rfl; simp at l2) z1 z2
  refine ⟨r, e, hi.trans ⟨fun ⟨d, hd, _, hs⟩ => ⟨d, hd, hs⟩, ?_⟩⟩
  rintro ⟨d, hd, c, ⟨s1, s2⟩ | ⟨s1, s2⟩⟩
  · obtain ⟨r, hr, c', t1, t2⟩ := sat_half c1 c2 l1 l2 hd s1 s2
    have hs : SepBy r h1 h2 := ⟨c', Or.inl ⟨t1, t2⟩⟩
    rcases hr with hr | hr
    · exact ⟨_, fun h0 => z1 (h0 ▸ hr), Or.inl hr, hs.neg⟩
    · exact ⟨r, fun h0 => z2 (h0 ▸ hr), Or.inr hr, hs⟩
  · obtain ⟨r, hr, c', t1, t2⟩ := sat_half c2 c1 l2 l1 hd s1 s2
    have hs : SepBy r h1 h2 := ⟨c', Or.inr ⟨t1, t2⟩⟩
    rcases hr with hr | hr
    · exact ⟨_, fun h0 => z2 (h0 ▸ hr), Or.inr hr, hs.neg⟩
    · exact ⟨r, fun h0 => z1 (h0 ▸ hr), Or.inl hr, hs⟩

/-- **C424** for the results of `convex_hull2d`: for two lists of points whose ordinates are equal or apart by at least the tolerance and
whose hulls have three vertices or more, the answer is "separable" exactly if any line separates the two hulls. -/
theorem C424_hulls {nrm : K × K → K} (hn : IsNorm2 nrm) {eps : K} (heps : 0 < eps) {angle : K × K → K} (ha : Poly.IsAngle angle)
    {ps qs : List (K × K)} (y1 : Poly.SeparatedY eps ps) (y2 : Poly.SeparatedY eps qs) (l1 : 3 ≤ (Poly.convexHull2d eps angle ps).length)
    (l2 : 3 ≤ (Poly.convexHull2d eps angle qs).length) :
    ∃ r, ch2dSep nrm (Poly.convexHull2d eps angle ps) (Poly.convexHull2d eps angle qs) = some r ∧
      (r = true ↔ ∃ d, d ≠ (0, 0) ∧ SepBy d (Poly.convexHull2d eps angle ps) (Poly.convexHull2d eps angle qs)) := by
  have len : ∀ pts : List (K × K), 3 ≤ (Poly.convexHull2d eps angle pts).length → 3 ≤ pts.length := by
    intro pts h
    by_contra hcon
    rw [Poly.convexHull2d.eq_def, if_pos (by omega)] at h
    exact hcon h
  exact C424_convex hn (Poly.C24_convex eps heps angle ha ps (len ps l1) y1).1 (Poly.C24_convex eps heps angle ha qs (len qs l2) y2).1 l1 l2

theorem left_iff {h : List (ℚ × ℚ)} (H : ∀ i < h.length, ∀ j < h.length, ∀ k < h.length, i < j → j < k →
    0 < Poly.cross (h.getD i 0) (h.getD j 0) (h.getD k 0)) : LeftConvex h := by
  intro i j k p q r hij hjk hi hj hk
  obtain ⟨a, rfl⟩ := List.getElem?_eq_some_iff.1 hi
  obtain ⟨b, rfl⟩ := List.getElem?_eq_some_iff.1 hj
  obtain ⟨c, rfl⟩ := List.getElem?_eq_some_iff.1 hk
  have := H i a j b k c hij hjk
  simpa [List.getD_eq_getElem?_getD, a, b, c] using this

/-- Two triangles that a slanted line separates, although their boxes overlap. -/
example : ∀ {nrm : ℚ × ℚ → ℚ}, IsNorm2 nrm → ch2dSep nrm [(0, 0), (4, 0), (0, 4)] [(4, 4), (1, 4), (4, 1)] = some true := by
  intro nrm hn
  obtain ⟨r, e, h⟩ := C424_convex hn (h1 := [((0 : ℚ), (0 : ℚ)), (4, 0), (0, 4)]) (h2 := [(4, 4), (1, 4), (4, 1)])
    (left_iff (by decide +kernel)) (left_iff (by decide +kernel)) (by decide) (by decide)
  rw [e, h.2 ⟨(1, 1), by decide +kernel, 9 / 2, Or.inl ⟨by decide +kernel, by decide +kernel⟩⟩]

end Verif.Sph
