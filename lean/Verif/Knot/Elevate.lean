import Verif.Knot.Compose
import Verif.Bez.Props
import Mathlib.Data.Nat.Choose.Vandermonde

/-! A clamped curve with `degree + 1` points is a Bezier curve; its elevated copy. -/

set_option linter.unusedSectionVars false

namespace Verif.Knot
open Verif.Nurbs Verif.Bez Finset

variable {K : Type} [Field K] [LinearOrder K] [IsStrictOrderedRing K]

theorem cox_bezier (U : Nat → K) (p : Nat) (a b x : K) (hab : a < b) (hlo : ∀ k, k ≤ p → U k = a)
    (hhi : ∀ k, p < k → k < 2 * p + 2 → U k = b) : ∀ j, j ≤ p → ∀ r, r ≤ j →
    cox (spike p) U x j (p - j + r) = bern j r ((x - a) / (b - a)) := by
  have hne : b - a ≠ 0 := sub_ne_zero.mpr (ne_of_gt hab)
  have h1t : 1 - (x - a) / (b - a) = (b - x) / (b - a) := by field_simp; ring
  intro j
  induction j with
  | zero =>
    intro _ r hr
    obtain rfl : r = 0 := by omega
    simp [cox, spike, bern]
  | succ j ih =>
    intro hj r hr
    rw [cox]
    by_cases c0 : r = 0
    · subst c0
      rw [cox_spike_out p U x j _ (Or.inr (by omega)), mul_zero, zero_add,
        show p - (j + 1) + 0 + 1 = p - j + 0 by omega, ih (by omega) 0 (by omega), hhi _ (by omega) (by omega),
        hlo (p - j + 0) (by omega), ← h1t]
      simp only [bern, Nat.choose_zero_right, pow_zero, Nat.sub_zero, mul_one, Nat.cast_one, one_mul]
      rw [pow_succ, mul_comm]
    · obtain ⟨s, rfl⟩ : ∃ s, r = s + 1 := ⟨r - 1, by omega⟩
      rw [show p - (j + 1) + (s + 1) = p - j + s by omega, ih (by omega) s (by omega), hlo (p - j + s) (by omega),
        hhi (p - j + s + j + 1) (by omega) (by omega)]
      by_cases c1 : s = j
      · subst c1
        rw [cox_spike_out p U x s _ (Or.inl (by omega)), mul_zero, add_zero]
        simp only [bern, Nat.choose_self, Nat.sub_self, pow_zero, Nat.cast_one, one_mul, mul_one]
        rw [pow_succ, mul_comm]
      · rw [show p - j + s + 1 = p - j + (s + 1) by omega, ih (by omega) (s + 1) (by omega), hlo (p - j + (s + 1)) (by omega),
          hhi (p - j + s + j + 2) (by omega) (by omega), ← h1t]
        simp only [bern]
        rw [Nat.choose_succ_succ, Nat.cast_add, show j - s = j - (s + 1) + 1 by omega,
          show j + 1 - (s + 1) = j - (s + 1) + 1 by omega]
        ring

/-- A clamped curve with `degree + 1` control points, column by column. -/
theorem specVal_bezier (c : Curve K) (h : Clamped c) (hn : c.n = c.degree + 1) (q : Nat → K) (x : K)
    (h1 : c.U c.degree ≤ x) (h2 : x ≤ c.U c.n) :
    specVal c q x = bez c.degree q ((x - c.U c.degree) / (c.U c.n - c.U c.degree)) := by
  have hk := h.valid.knots
  have hst := h.start
  have hsp : Sp c.U c.n x c.degree := by
    refine ⟨by omega, hst, h1, ?_⟩
    rcases lt_or_eq_of_le h2 with h | h
    · left; rw [← hn]; exact h
    · right; exact ⟨hn.symm, h⟩
  rw [specVal_eq c h.valid q x c.degree hsp, spline, bez, hn]
  refine sum_congr rfl fun l hl => ?_
  have hl' := mem_range.mp hl
  have := cox_bezier c.U c.degree (c.U c.degree) (c.U c.n) x (by rw [hn]; exact hst) (fun k hk => h.lo_eq k hk)
    (fun k hk1 hk2 => h.hi_eq k (by omega) (by omega)) c.degree (le_refl _) l (by omega)
  rw [show c.degree - c.degree + l = l by omega] at this
  rw [this, bern, ← hn]
  ring

theorem bez_zero (p : Nat) (P : Nat → K) : bez p P 0 = P 0 := by
  rw [bez, sum_range_succ']
  simp

theorem bez_one (p : Nat) (P : Nat → K) : bez p P 1 = P p := by
  rw [bez, sum_range_succ, sum_eq_zero]
  · simp
  · intro i hi
    have := mem_range.mp hi
    rw [sub_self, zero_pow (by omega), mul_zero, zero_mul]

theorem bez_ends (c : Curve K) (h : Clamped c) (hn : c.n = c.degree + 1) (q : Nat → K) :
    specVal c q (c.U c.degree) = q 0 ∧ specVal c q (c.U c.n) = q c.degree := by
  have hst := h.start
  rw [← hn] at hst
  rw [specVal_bezier c h hn q _ (le_refl _) (le_of_lt hst), specVal_bezier c h hn q _ (le_of_lt hst) (le_refl _), sub_self,
    zero_div, div_self (sub_ne_zero.mpr (ne_of_gt hst)), bez_zero, bez_one]
  exact ⟨rfl, rfl⟩

/-- A column of equal values stays the same. -/
theorem elevate_const (g : Nat → K) (p t : Nat) (hpt : p + t ≤ 30) (P : Nat → K) (w : K) (hP : ∀ l, l < p + 1 → P l = w)
    (i : Nat) (hi : i < p + 1 + t) (Q : Nat → K) (hQ : elevate g (p + 1) p t P = some (Q, p + t)) : Q i = w := by
  rw [elevate, if_neg (by simp)] at hQ
  simp only [Option.some.injEq, Prod.mk.injEq] at hQ
  rw [← hQ.1]
  have h1 : ∑ j ∈ Ico (i - t) (min p i + 1), (p.choose j : K) * (t.choose (i - j) : K) = ((p + t).choose i : K) := by
    rw [Nat.add_choose_eq, Nat.cast_sum, Nat.sum_antidiagonal_eq_sum_range_succ_mk]
    have hsub : Ico (i - t) (min p i + 1) ⊆ range i.succ := by
      intro j hj
      rw [mem_Ico] at hj
      exact mem_range.mpr (by omega)
    rw [← sum_subset hsub]
    · exact sum_congr rfl fun j _ => by push_cast; rfl
    · intro j hj hnj
      rw [mem_Ico] at hnj
      have := mem_range.mp hj
      by_cases c : p < j
      · rw [Nat.choose_eq_zero_of_lt c]; simp
      · rw [Nat.choose_eq_zero_of_lt (show t < i - j by omega)]; simp
  have hne : ((p + t).choose i : K) ≠ 0 := by
    have := Nat.choose_pos (show i ≤ p + t by omega)
    exact_mod_cast this.ne'
  calc ∑ j ∈ Ico (i - t) (min p i + 1), binom g p j * binom g t (i - j) / binom g (p + t) i * P j
      = ∑ j ∈ Ico (i - t) (min p i + 1), (p.choose j : K) * (t.choose (i - j) : K) * (w / ((p + t).choose i : K)) := by
        refine sum_congr rfl fun j hj => ?_
        rw [mem_Ico] at hj
        rw [C113_table g p j (by omega) (by omega), C113_table g t (i - j) (by omega) (by omega),
          C113_table g (p + t) i (by omega) (by omega), hP j (by omega)]
        ring
    _ = w := by rw [← sum_mul, h1]; field_simp

theorem elevate_piece (g : Nat → K) (num : Nat) (hnum : 1 ≤ num) (d : Curve K) (h : Clamped d) (hn : d.n = d.degree + 1)
    (h30 : d.degree + num ≤ 30) : ∃ e, elevatePiece g num d = some e ∧ Clamped e ∧ e.degree = d.degree + num ∧
    e.n = e.degree + 1 ∧ e.U e.degree = d.U d.degree ∧ e.U e.n = d.U d.n ∧
    (∀ x, d.U d.degree ≤ x → x ≤ d.U d.n → ∀ col, specVal e (fun l => e.P l col) x = specVal d (fun l => d.P l col) x) ∧
    (∀ w, (∀ l, l < d.n → d.P l 3 = w) → ∀ l, l < e.n → e.P l 3 = w) ∧
    ∀ k, k < e.m → e.U k = d.U d.degree ∨ e.U k = d.U d.n := by
  have hk := h.valid.knots
  have hm : d.m = 2 * d.degree + 2 := by omega
  have hst := h.start
  obtain ⟨e, he⟩ : ∃ e, elevatePiece g num d = some e := ⟨_, if_neg (by omega)⟩
  have he' := he
  rw [elevatePiece, if_neg (by omega)] at he'
  simp only [Option.some.injEq] at he'
  have eU : ∀ k, e.U k = if k < num then d.U 0 else if k < num + d.m then d.U (k - num) else d.U (d.m - 1) := by
    intro k; rw [← he']
  have en : e.n = d.degree + 1 + num := by rw [← he']
  have em : e.m = d.m + num * 2 := by rw [← he']
  have ed : e.degree = d.degree + num := by rw [← he']
  have elo : ∀ k, k ≤ d.degree + num → e.U k = d.U d.degree := by
    intro k hk'
    rw [eU]
    by_cases c : k < num
    · rw [if_pos c, h.lo]
    · rw [if_neg c, if_pos (by omega), h.lo_eq _ (by omega)]
  have ehi : ∀ k, d.degree + num < k → k < e.m → e.U k = d.U d.n := by
    intro k hk1 hk2
    rw [eU, if_neg (by omega)]
    by_cases c : k < num + d.m
    · rw [if_pos c, h.hi_eq _ (by omega) (by omega)]
    · rw [if_neg c, h.hi]
  have hst' : d.U d.degree < d.U d.n := by rw [hn]; exact hst
  have hcl : Clamped e := by
    refine ⟨⟨by omega, by omega, ?_, ?_⟩, by omega, by rw [← he'], ?_, ?_, ?_⟩
    · intro i j hij hj
      by_cases c : j ≤ d.degree + num
      · rw [elo i (by omega), elo j c]
      · by_cases c' : i ≤ d.degree + num
        · rw [elo i c', ehi j (by omega) hj]; exact le_of_lt hst'
        · rw [ehi i (by omega) (by omega), ehi j (by omega) hj]
    · rw [elo _ (by omega), ehi _ (by omega) (by omega)]; exact hst'
    · rw [elo _ (by omega), elo _ (by omega)]
    · rw [ehi _ (by omega) (by omega), ehi _ (by omega) (by omega)]
    · rw [elo _ (by omega), ehi _ (by omega) (by omega)]; exact hst'
  have hP : ∀ col, ∃ Q, elevate g (d.degree + 1) d.degree num (fun a => d.P a col) = some (Q, d.degree + num) ∧
      (∀ u, bez (d.degree + num) Q u = bez d.degree (fun a => d.P a col) u) ∧ ∀ i, e.P i col = Q i := by
    intro col
    obtain ⟨Q, hQ, hb⟩ := C41_elevate g d.degree num h30 (fun a => d.P a col)
    refine ⟨Q, hQ, hb, fun i => ?_⟩
    rw [← he']
    simp only [hn, hQ]
  have e1 : e.U e.degree = d.U d.degree := elo _ (by omega)
  have e2 : e.U e.n = d.U d.n := ehi _ (by omega) (by omega)
  refine ⟨e, he, hcl, ed, by omega, e1, e2, fun x hx1 hx2 col => ?_, fun w hw l hl => ?_, fun k hk => ?_⟩
  · obtain ⟨Q, _, hb, hQ⟩ := hP col
    rw [specVal_bezier e hcl (by omega) _ x (by rw [e1]; exact hx1) (by rw [e2]; exact hx2), e1, e2, ed,
      specVal_bezier d h hn _ x hx1 hx2, ← hb]
    congr 1
    funext l
    exact hQ l
  · obtain ⟨Q, hQ', _, hQ⟩ := hP 3
    rw [hQ]
    exact elevate_const g d.degree num h30 _ w (fun l hl => hw l (by omega)) l (by omega) Q hQ'
  · by_cases q : k ≤ d.degree + num
    · exact Or.inl (elo k q)
    · exact Or.inr (ehi k (by omega) hk)

/-- Elevating the Bezier pieces of a curve: a chain that takes the values of the curve. -/
theorem elevate_chain (g : Nat → K) (num : Nat) (hnum : 1 ≤ num) (c : Curve K) (h30 : c.degree + num ≤ 30) (hdeg : 1 ≤ c.degree)
    (b : K) : ∀ (ts : List K) (a : K) (ds : List (Curve K)),
    List.Forall₂ (fun d (i : K × K) => ColPiece c d i.1 i.2 ∧ d.n = c.degree + 1) ds (intervals a ts b) →
    (∀ d ∈ ds, d.U 0 = d.U d.degree ∧ d.U (d.m - 1) = d.U d.n) → a < b → (∀ t ∈ ts, a < t ∧ t < b) → ts.Pairwise (· < ·) →
    ∃ e es, elevateAll g num ds = some (e :: es) ∧ Chain (c.degree + num) (e :: es) ∧ e.U e.degree = a ∧
      (∀ col, e.P 0 col = specVal c (fun l => c.P l col) a) ∧
      (∃ z, (e :: es).getLast? = some z ∧ z.U z.n = b) ∧
      (∀ x, a ≤ x → x ≤ b → ∃ f ∈ e :: es, f.U f.degree ≤ x ∧ x ≤ f.U f.n ∧ ∀ col,
        specVal f (fun l => f.P l col) x = specVal c (fun l => c.P l col) x) ∧
      (∀ w, (∀ d ∈ ds, ∀ l, l < d.n → d.P l 3 = w) → ∀ f ∈ e :: es, ∀ l, l < f.n → f.P l 3 = w) ∧
      (∀ f ∈ e :: es, NoJump f) ∧
      ∀ S : K → Prop, S a → S b → (∀ t ∈ ts, S t) → ∀ f ∈ e :: es, ∀ k, k < f.m → S (f.U k) := by
  have key : ∀ (d : Curve K) (a t : K), ColPiece c d a t → d.n = c.degree + 1 →
      (d.U 0 = d.U d.degree ∧ d.U (d.m - 1) = d.U d.n) → a < t → ∃ e, elevatePiece g num d = some e ∧ Clamped e ∧
      e.degree = c.degree + num ∧ e.n = e.degree + 1 ∧ e.U e.degree = a ∧ e.U e.n = t ∧
      (∀ x, a ≤ x → x ≤ t → ∀ col, specVal e (fun l => e.P l col) x = specVal c (fun l => c.P l col) x) ∧
      (∀ col, e.P 0 col = specVal c (fun l => c.P l col) a) ∧
      (∀ col, e.P (e.n - 1) col = specVal c (fun l => c.P l col) t) ∧
      (∀ w, (∀ l, l < d.n → d.P l 3 = w) → ∀ l, l < e.n → e.P l 3 = w) ∧ NoJump e ∧
      ∀ k, k < e.m → e.U k = a ∨ e.U k = t := by
    intro d a t hp hn hlh hat
    obtain ⟨v, hd, hper, _, hUa, hUb, hs⟩ := hp
    have hcl : Clamped d := ⟨v, by omega, hper, hlh.1, hlh.2, by rw [← hd] at hn; rw [← hn, hUa, hUb]; exact hat⟩
    obtain ⟨e, he, hce, e1, e2, e3, e4, e5, e6, e7⟩ := elevate_piece g num hnum d hcl (by omega) (by omega)
    rw [hUa] at e3
    rw [hUb] at e4
    rw [hUa, hUb] at e7
    have hv : ∀ x, a ≤ x → x ≤ t → ∀ col, specVal e (fun l => e.P l col) x = specVal c (fun l => c.P l col) x := by
      intro x hx1 hx2 col
      rw [e5 x (by rw [hUa]; exact hx1) (by rw [hUb]; exact hx2) col, hs x hx1 hx2 col]
    refine ⟨e, he, hce, by omega, e2, e3, e4, hv, fun col => ?_, fun col => ?_, e6, fun j hj hj1 hj2 => ?_, e7⟩
    · rw [← hv a (le_refl _) (le_of_lt hat) col, ← e3, (bez_ends e hce e2 _).1]
    · rw [← hv t (le_of_lt hat) (le_refl _) col, ← e4, (bez_ends e hce e2 _).2, e2]
      rfl
    · rw [e3] at hj1
      rw [e4] at hj2
      rcases e7 j (by omega) with q | q
      · rw [q] at hj1; exact absurd hj1 (lt_irrefl _)
      · rw [q] at hj2; exact absurd hj2 (lt_irrefl _)
  intro ts
  induction ts with
  | nil =>
    intro a ds hf hlh hab _ _
    rw [intervals] at hf
    cases hf with
    | cons h1 h2 =>
      cases h2
      rename_i d
      obtain ⟨e, he, hce, e1, e2, e3, e4, e5, e6, e7, e8, e9, e10⟩ := key d a b h1.1 h1.2 (hlh d List.mem_cons_self) hab
      refine ⟨e, [], by simp only [elevateAll, he], ⟨hce, e1⟩, e3, e6, ⟨e, rfl, e4⟩, fun x hx1 hx2 => ?_, fun w hw f hf => ?_,
        fun f hf => by rw [List.mem_singleton] at hf; rw [hf]; exact e9, fun S s1 s2 _ f hf k hk => ?_⟩
      · exact ⟨e, List.mem_cons_self, by rw [e3]; exact hx1, by rw [e4]; exact hx2, e5 x hx1 hx2⟩
      · rw [List.mem_singleton] at hf
        rw [hf]
        exact e8 w (hw d List.mem_cons_self)
      · rw [List.mem_singleton] at hf
        rw [hf] at hk ⊢
        rcases e10 k hk with q | q <;> rw [q] <;> assumption
  | cons t ts ih =>
    intro a ds hf hlh hab hts hpw
    rw [intervals] at hf
    cases hf with
    | cons h1 h2 =>
      rename_i d ds
      obtain ⟨ht1, ht2⟩ := hts t List.mem_cons_self
      obtain ⟨e, he, hce, e1, e2, e3, e4, e5, e6, e7, e8, e9, e10⟩ := key d a t h1.1 h1.2 (hlh d List.mem_cons_self) ht1
      have hpw' := List.pairwise_cons.mp hpw
      obtain ⟨e', es, h3, h4, h5, h6, ⟨z, hz, hzb⟩, h7, h8, h9, h10⟩ := ih t ds h2 (fun d hd => hlh d (List.mem_cons_of_mem _ hd)) ht2
        (fun s hs => ⟨hpw'.1 s hs, (hts s (List.mem_cons_of_mem _ hs)).2⟩) hpw'.2
      have hce' : Clamped e' := by
        cases es with
        | nil => exact h4.1
        | cons _ _ => exact h4.1.1
      refine ⟨e, e' :: es, by simp only [elevateAll, he, h3],
        ⟨⟨hce, e1⟩, by rw [hce'.lo, h5, e4], fun col => by rw [h6, e7], h4⟩, e3, e6,
        ⟨z, by rw [List.getLast?_cons_cons]; exact hz, hzb⟩, fun x hx1 hx2 => ?_, fun w hw f hf => ?_, fun f hf => ?_,
        fun S s1 s2 s3 f hf k hk => ?_⟩
      · by_cases c : x ≤ t
        · exact ⟨e, List.mem_cons_self, by rw [e3]; exact hx1, by rw [e4]; exact c, e5 x hx1 c⟩
        · obtain ⟨f, hf, hff⟩ := h7 x (le_of_lt (not_le.mp c)) hx2
          exact ⟨f, List.mem_cons_of_mem _ hf, hff⟩
      · rcases List.mem_cons.mp hf with rfl | hf
        · exact e8 w (hw d List.mem_cons_self)
        · exact h8 w (fun d hd => hw d (List.mem_cons_of_mem _ hd)) f hf
      · rcases List.mem_cons.mp hf with rfl | hf
        · exact e9
        · exact h9 f hf
      · have st := s3 t List.mem_cons_self
        rcases List.mem_cons.mp hf with rfl | hf
        · rcases e10 k hk with q | q <;> rw [q] <;> assumption
        · exact h10 S st s2 (fun s hs => s3 s (List.mem_cons_of_mem _ hs)) f hf k hk

/-! ## The parameters of `decompose_curve` -/

/-- A sorted list without repetition is determined by its elements. -/
theorem sorted_ext : ∀ (l1 l2 : List K), l1.Pairwise (· < ·) → l2.Pairwise (· < ·) → (∀ x, x ∈ l1 ↔ x ∈ l2) → l1 = l2 := by
  intro l1 l2 h1 h2 h
  have n1 : l1.Nodup := h1.imp (fun h => ne_of_lt h)
  have n2 : l2.Nodup := h2.imp (fun h => ne_of_lt h)
  exact ((List.perm_ext_iff_of_nodup n1 n2).mpr h).eq_of_pairwise' h1 h2

theorem foldr_insertSet (l : List K) : (l.foldr insertSet []).Pairwise (· < ·) ∧ ∀ x, x ∈ l.foldr insertSet [] ↔ x ∈ l := by
  induction l with
  | nil => exact ⟨List.Pairwise.nil, fun x => Iff.rfl⟩
  | cons y l ih =>
    rw [List.foldr_cons]
    refine ⟨insertSet_sorted y _ ih.1, fun x => ?_⟩
    rw [insertSet_mem, ih.2, List.mem_cons]

theorem sorted_inner : ∀ (l : List K), l.Pairwise (· < ·) → ∀ x, x ∈ l.tail.dropLast ↔
    x ∈ l ∧ (∃ y ∈ l, y < x) ∧ ∃ z ∈ l, x < z := by
  intro l hl x
  cases l with
  | nil => simp
  | cons a l =>
    rw [List.tail_cons]
    have h1 := List.pairwise_cons.mp hl
    rcases List.eq_nil_or_concat l with rfl | ⟨l', b, rfl⟩
    · simp only [List.dropLast_nil, List.not_mem_nil, List.mem_singleton, false_iff, not_and, not_exists]
      rintro rfl ⟨y, hy, hlt⟩
      rw [hy] at hlt
      exact absurd hlt (lt_irrefl _)
    · rw [List.concat_eq_append, List.dropLast_concat]
      rw [List.concat_eq_append] at h1
      have h2 := List.pairwise_append.mp h1.2
      constructor
      · intro hx
        exact ⟨by simp [hx], ⟨a, by simp, h1.1 x (by simp [hx])⟩, ⟨b, by simp, h2.2.2 x hx b (by simp)⟩⟩
      · rintro ⟨hx, ⟨y, hy, hyx⟩, ⟨z, hz, hxz⟩⟩
        simp only [List.mem_cons, List.mem_append, List.not_mem_nil, or_false] at hx hy hz
        rcases hx with rfl | hx | rfl
        · rcases hy with rfl | hy | rfl
          · exact absurd hyx (lt_irrefl _)
          · exact absurd (h1.1 y (by simp [hy])) (not_lt.mpr (le_of_lt hyx))
          · exact absurd (h1.1 y (by simp)) (not_lt.mpr (le_of_lt hyx))
        · exact hx
        · rcases hz with rfl | hz | rfl
          · exact absurd (h1.1 x (by simp)) (not_lt.mpr (le_of_lt hxz))
          · exact absurd (h2.2.2 z hz x (by simp)) (not_lt.mpr (le_of_lt hxz))
          · exact absurd hxz (lt_irrefl _)

theorem uniqueInner_eq (c : Curve K) (h : Clamped c) : uniqueInner c.U c.m = innerKnots c.U c.m c.degree := by
  have hk := h.valid.knots
  have hn := h.valid.npos
  obtain ⟨s1, s2⟩ := foldr_insertSet ((List.range c.m).map c.U)
  apply sorted_ext
  · rw [uniqueInner]
    exact (s1.sublist (List.tail_sublist _)).sublist (List.dropLast_sublist _)
  · exact innerKnots_sorted c.U c.m c.degree
  · intro x
    rw [uniqueInner, sorted_inner _ s1, innerKnots_mem]
    simp only [s2, List.mem_map, List.mem_range]
    constructor
    · rintro ⟨⟨k, hk1, rfl⟩, ⟨y, ⟨j, hj, rfl⟩, hy⟩, ⟨z, ⟨l, hl, rfl⟩, hz⟩⟩
      refine ⟨k, ?_, ?_, rfl⟩
      · by_contra hc
        have := h.valid.mono 0 j (by omega) hj
        rw [h.lo_eq k (by omega), ← h.lo] at hy
        exact absurd hy (not_lt.mpr this)
      · by_contra hc
        have := h.valid.mono l (c.m - 1) (by omega) (by omega)
        rw [h.hi_eq k (by omega) hk1, ← h.hi] at hz
        exact absurd hz (not_lt.mpr this)
    · rintro ⟨k, hk1, hk2, rfl⟩
      refine ⟨⟨k, by omega, rfl⟩, ⟨_, ⟨c.degree, by omega, rfl⟩, ?_⟩, ⟨_, ⟨c.n, by omega, rfl⟩, ?_⟩⟩
      · exact lt_of_lt_of_le h.start (h.valid.mono _ _ (by omega) (by omega))
      · exact lt_of_le_of_lt (h.valid.mono _ (c.n - 1) (by omega) (by omega)) h.valid.last

end Verif.Knot
