import Verif.Rfn.Model
import Verif.Nurbs.Props
import Mathlib.Tactic.Linarith

/-! The refinement loop is repeated single insertion. -/

set_option linter.unusedSectionVars false

namespace Verif.Rfn
open Verif.Nurbs Finset

variable {K : Type} [Field K] [LinearOrder K]

/-- The knots of the curve reached when `j` knots remain to be inserted. -/
def knotsOf (i j : Nat) (U V : Nat → K) : Nat → K := fun l => if l ≤ i then U l else V (l + j)

/-- Its control values. -/
def ptsOf (p i j : Nat) (P Q : Nat → K) : Nat → K := fun l => if l + p < i then P l else Q (l + j)

theorem shift_spec (p a : Nat) (U P : Nat → K) (x : K) (hpa : p ≤ a) (j : Nat) : ∀ (i k : Nat) (Q V : Nat → K), a ≤ i → k = i + j →
    (shift p a U P x i k Q V).k = (shift p a U P x i k Q V).i + j ∧ a ≤ (shift p a U P x i k Q V).i ∧
    (shift p a U P x i k Q V).i ≤ i ∧
    knotsOf (shift p a U P x i k Q V).i j U (shift p a U P x i k Q V).V = knotsOf i j U V ∧
    ptsOf p (shift p a U P x i k Q V).i j P (shift p a U P x i k Q V).Q = ptsOf p i j P Q ∧
    (∀ l, l + p < a → (shift p a U P x i k Q V).Q l = Q l) ∧ (∀ l, l ≤ a → (shift p a U P x i k Q V).V l = V l) ∧
    ((shift p a U P x i k Q V).i = a ∨ U (shift p a U P x i k Q V).i < x) ∧
    ((shift p a U P x i k Q V).i = i ∨ x ≤ U ((shift p a U P x i k Q V).i + 1)) := by
  intro i
  induction i with
  | zero =>
    intro k Q V hi hk
    exact ⟨hk, hi, le_refl _, rfl, rfl, fun _ _ => rfl, fun _ _ => rfl, Or.inl (show 0 = a by omega), Or.inl rfl⟩
  | succ i ih =>
    intro k Q V hi hk
    by_cases h : x ≤ U (i + 1) ∧ a < i + 1
    · simp only [shift]
      rw [if_pos h]
      obtain ⟨h1, h2, h3, h4, h5, h6, h7, h8, h9⟩ := ih (k - 1) (Function.update Q (k - p - 1) (P (i + 1 - p - 1)))
        (Function.update V k (U (i + 1))) (by omega) (by omega)
      refine ⟨h1, h2, by omega, ?_, ?_, ?_, ?_, h8, ?_⟩
      · rw [h4]
        funext l
        simp only [knotsOf]
        rcases Nat.lt_trichotomy l (i + 1) with q | q | q
        · rw [if_pos (by omega), if_pos (by omega)]
        · rw [if_neg (by omega), if_pos (by omega), q, hk, Function.update_self]
        · rw [if_neg (by omega), if_neg (by omega), Function.update_of_ne (by omega)]
      · rw [h5]
        funext l
        simp only [ptsOf]
        rcases Nat.lt_trichotomy (l + p) i with q | q | q
        · rw [if_pos (by omega), if_pos (by omega)]
        · rw [if_neg (by omega), if_pos (by omega), show l + j = k - p - 1 by omega, Function.update_self,
            show i + 1 - p - 1 = l by omega]
        · rw [if_neg (by omega), if_neg (by omega), Function.update_of_ne (by omega)]
      · intro l hl
        rw [h6 l hl, Function.update_of_ne (by omega)]
      · intro l hl
        rw [h7 l hl, Function.update_of_ne (by omega)]
      · right
        rcases h9 with h9 | h9
        · rw [h9]; exact h.1
        · exact h9
    · simp only [shift]
      rw [if_neg h]
      refine ⟨hk, hi, le_refl _, rfl, rfl, fun _ _ => rfl, fun _ _ => rfl, ?_, Or.inl rfl⟩
      by_cases q : a < i + 1
      · right
        by_contra hc
        exact h ⟨not_lt.mp hc, q⟩
      · left
        show i + 1 = a
        omega

/-- What the blending loop leaves: entries `k - p - 1 + l` for `l` from 1 to `p` are replaced. -/
theorem blend_loop (tol : K) (p i k : Nat) (U V : Nat → K) (x : K) (hk : p < k) (Q : Nat → K) : ∀ q, q ≤ p →
    (∀ l, l < q → (List.range q).foldl (fun Q l => blend tol p i k U V x Q (l + 1)) Q (k - p + l) =
      if |V (k + (l + 1)) - x| < tol then Q (k - p + l + 1) else
        (V (k + (l + 1)) - x) / (V (k + (l + 1)) - U (i - p + (l + 1))) * Q (k - p + l) +
        (1 - (V (k + (l + 1)) - x) / (V (k + (l + 1)) - U (i - p + (l + 1)))) * Q (k - p + l + 1)) ∧
    (∀ r, (r < k - p ∨ k - p + q ≤ r) → (List.range q).foldl (fun Q l => blend tol p i k U V x Q (l + 1)) Q r = Q r) := by
  intro q
  induction q with
  | zero => intro _; exact ⟨fun l hl => absurd hl (by omega), fun r _ => rfl⟩
  | succ q ih =>
    intro hq
    obtain ⟨h1, h2⟩ := ih (by omega)
    rw [List.range_succ, List.foldl_append]
    simp only [List.foldl_cons, List.foldl_nil]
    set Q' := (List.range q).foldl (fun Q l => blend tol p i k U V x Q (l + 1)) Q with hQ'
    clear_value Q'
    have e0 : k - p + q + 1 - 1 = k - p + q := by omega
    have e1 : k - p + (q + 1) = k - p + q + 1 := by omega
    refine ⟨fun l hl => ?_, fun r hr => ?_⟩
    · simp only [blend, e1, e0]
      by_cases hlq : l = q
      · subst hlq
        by_cases hc : |V (k + (l + 1)) - x| < tol
        · rw [if_pos hc, if_pos hc, Function.update_self, h2 _ (by omega)]
        · rw [if_neg hc, if_neg hc, Function.update_self, h2 _ (by omega), h2 _ (by omega)]
      · rw [← h1 l (by omega)]
        split <;> rw [Function.update_of_ne (by omega)]
    · simp only [blend, e1, e0]
      rw [← h2 r (by omega)]
      split <;> rw [Function.update_of_ne (by omega)]

/-- One turn of the outer loop. -/
theorem insert_spec (tol : K) (p a : Nat) (U P : Nat → K) (x : K) (hpa : p ≤ a) (j : Nat) (s : St K) (hi : a ≤ s.i)
    (hk : s.k = s.i + (j + 1)) :
    ∃ i, (insertOne tol p a U P s x).i = i ∧ (insertOne tol p a U P s x).k = i + j ∧ a ≤ i ∧ i ≤ s.i ∧
      (i = a ∨ U i < x) ∧ (i = s.i ∨ x ≤ U (i + 1)) ∧
      (∀ l, l + p < a → (insertOne tol p a U P s x).Q l = s.Q l) ∧ (∀ l, l ≤ a → (insertOne tol p a U P s x).V l = s.V l) ∧
      (∀ W R W' R' : Nat → K, W = knotsOf s.i (j + 1) U s.V → R = ptsOf p s.i (j + 1) P s.Q →
        W' = knotsOf i j U (insertOne tol p a U P s x).V → R' = ptsOf p i j P (insertOne tol p a U P s x).Q →
        Inserted W W' i x ∧
        ((∀ l, 1 ≤ l → l ≤ p → (|W (i + l) - x| < tol → W (i + l) = x) ∧ W (i + l) - W (i - p + l) ≠ 0) →
          ∀ l, R' l = boehmPts W' i x p R l)) := by
  obtain ⟨h1, h2, h3, h4, h5, h6, h7, h8, h9⟩ := shift_spec p a U P x hpa (j + 1) s.i s.k s.Q s.V hi hk
  set t := shift p a U P x s.i s.k s.Q s.V with ht
  clear_value t
  have hins : insertOne tol p a U P s x = ⟨t.i, t.k - 1, (List.range p).foldl (fun Q l => blend tol p t.i t.k U t.V x Q (l + 1))
      (Function.update t.Q (t.k - p - 1) (t.Q (t.k - p))), Function.update t.V t.k x⟩ := by
    rw [insertOne, ← ht]
  rw [hins]
  simp only
  obtain ⟨b1, b2⟩ := blend_loop tol p t.i t.k U t.V x (by omega) (Function.update t.Q (t.k - p - 1) (t.Q (t.k - p))) p (le_refl _)
  set Q' := (List.range p).foldl (fun Q l => blend tol p t.i t.k U t.V x Q (l + 1))
    (Function.update t.Q (t.k - p - 1) (t.Q (t.k - p))) with hQ'
  clear_value Q'
  refine ⟨t.i, rfl, by omega, h2, h3, h8, h9, fun l hl => ?_, fun l hl => ?_, ?_⟩
  · rw [b2 l (by omega), Function.update_of_ne (by omega), h6 l hl]
  · rw [Function.update_of_ne (by omega), h7 l hl]
  · intro W R W' R' hW hR hW' hR'
    rw [← h4] at hW
    rw [← h5] at hR
    have hI : Inserted W W' t.i x := by
      refine ⟨fun l hl => ?_, ?_, fun l hl => ?_⟩
      · rw [hW, hW', knotsOf, knotsOf, if_pos hl, if_pos hl]
      · rw [hW', knotsOf, if_neg (by omega), show t.i + 1 + j = t.k by omega, Function.update_self]
      · rw [hW, hW', knotsOf, knotsOf, if_neg (by omega), if_neg (by omega), Function.update_of_ne (by omega)]
        congr 1; omega
    refine ⟨hI, fun hsep l => ?_⟩
    have hRh : ∀ l, t.i ≤ l + p → R l = t.Q (l + (j + 1)) := by
      intro l hl
      rw [hR, ptsOf, if_neg (by omega)]
    rw [boehmPts]
    rcases Nat.lt_trichotomy (l + p) t.i with q | q | q
    · rw [ratio, if_pos (by omega), hR', hR, ptsOf, ptsOf, if_pos q, if_pos q]; ring
    · rw [ratio, if_pos (by omega), hR', ptsOf, if_neg (by omega), b2 _ (by omega), show l + j = t.k - p - 1 by omega,
        Function.update_self, hRh l (by omega), show l + (j + 1) = t.k - p by omega]
      ring
    · by_cases hl : l ≤ t.i
      · rw [ratio, if_neg (by omega), if_pos hl]
        obtain ⟨d, hd⟩ : ∃ d, l = t.i - p + (d + 1) := ⟨l - (t.i - p) - 1, by omega⟩
        have hdp : d < p := by omega
        have e := b1 d hdp
        have hWi : W (t.i + (d + 1)) = t.V (t.k + (d + 1)) := by
          rw [hW, knotsOf, if_neg (by omega)]
          congr 1; omega
        have hWl : W l = U l := by rw [hW, knotsOf, if_pos hl]
        obtain ⟨hs1, hs2⟩ := hsep (d + 1) (by omega) (by omega)
        rw [← hd, hWi, hWl] at hs2
        rw [hWi] at hs1
        have hV1 : W' l = U l := by rw [hI.1 l hl, hWl]
        have hV2 : W' (l + p + 1) = t.V (t.k + (d + 1)) := by
          rw [hI.2.2 (l + p) (by omega), ← hWi]
          congr 1; omega
        have hR1 : R' l = Q' (t.k - p + d) := by
          rw [hR', ptsOf, if_neg (by omega)]
          show Q' (l + j) = _
          congr 1; omega
        have q1 : Function.update t.Q (t.k - p - 1) (t.Q (t.k - p)) (t.k - p + d) = R (l - 1) := by
          rw [Function.update_of_ne (by omega), hRh (l - 1) (by omega)]
          congr 1; omega
        have q2 : Function.update t.Q (t.k - p - 1) (t.Q (t.k - p)) (t.k - p + d + 1) = R l := by
          rw [Function.update_of_ne (by omega), hRh l (by omega)]
          congr 1; omega
        rw [hR1, e, q1, q2, hV1, hV2, ← hd]
        by_cases hc : |t.V (t.k + (d + 1)) - x| < tol
        · rw [if_pos hc]
          have := hs1 hc
          rw [this] at hs2 ⊢
          rw [div_self hs2]; ring
        · rw [if_neg hc]
          generalize t.V (t.k + (d + 1)) = v at *
          field_simp
          ring
      · rw [ratio, if_neg (by omega), if_neg hl, hR', ptsOf, if_neg (by omega), hRh (l - 1) (by omega), b2 _ (by omega),
          Function.update_of_ne (by omega)]
        rw [show l + j = l - 1 + (j + 1) by omega]; ring


/-! ## One insertion -/

/-- The knots as a list. -/
def kl (U : Nat → K) (m : Nat) : List K := (List.range m).map U

theorem mem_kl (U : Nat → K) (m i : Nat) (h : i < m) : U i ∈ kl U m := List.mem_map.2 ⟨i, List.mem_range.2 h, rfl⟩

theorem kl_inserted (W W' : Nat → K) (i M : Nat) (x : K) (hI : Inserted W W' i x) (hi : i < M) :
    (kl W' (M + 1)).Perm (x :: kl W M) := by
  obtain ⟨d, rfl⟩ : ∃ d, M = i + 1 + d := ⟨M - (i + 1), by omega⟩
  have e1 : kl W (i + 1 + d) = kl W (i + 1) ++ (List.range d).map fun l => W (i + 1 + l) := by
    rw [kl, kl, List.range_add, List.map_append, List.map_map]; rfl
  have e2 : kl W' (i + 1 + d + 1) = kl W (i + 1) ++ x :: (List.range d).map fun l => W (i + 1 + l) := by
    rw [kl, show i + 1 + d + 1 = (i + 1) + (1 + d) by omega, List.range_add, List.map_append]
    congr 1
    · apply List.map_congr_left
      intro l hl
      exact hI.1 l (by have := List.mem_range.1 hl; omega)
    · rw [List.range_add, List.map_append, List.map_append, List.map_map, List.map_map]
      have h1 : List.map (W' ∘ fun x => i + 1 + x) (List.range 1) = [x] := by
        show [W' (i + 1 + 0)] = _
        rw [Nat.add_zero, hI.2.1]
      rw [h1, List.map_map]
      show x :: _ = _
      congr 1
      apply List.map_congr_left
      intro l _
      show W' (i + 1 + (1 + l)) = W (i + 1 + l)
      rw [show i + 1 + (1 + l) = i + 1 + l + 1 by omega, hI.2.2 _ (by omega)]
  rw [e1, e2]
  exact List.perm_middle

theorem inserted_mono (W W' : Nat → K) (i M : Nat) (x : K) (hI : Inserted W W' i x) (hi : i + 1 < M) (hW : MonoUpTo W M)
    (h1 : W i ≤ x) (h2 : x ≤ W (i + 1)) : MonoUpTo W' (M + 1) := by
  obtain ⟨a1, a2, a3⟩ := hI
  intro u v huv hv
  rcases Nat.lt_trichotomy v (i + 1) with q | q | q
  · rw [a1 u (by omega), a1 v (by omega)]; exact hW u v huv (by omega)
  · rw [q, a2]
    rcases Nat.lt_or_ge i u with r | r
    · rw [show u = i + 1 by omega, a2]
    · rw [a1 u r]; exact le_trans (hW u i r (by omega)) h1
  · obtain ⟨v, rfl⟩ : ∃ v', v = v' + 1 := ⟨v - 1, by omega⟩
    rw [a3 v (by omega)]
    rcases Nat.lt_trichotomy u (i + 1) with r | r | r
    · rw [a1 u (by omega)]; exact hW u v (by omega) (by omega)
    · rw [r, a2]; exact le_trans h2 (hW (i + 1) v (by omega) (by omega))
    · obtain ⟨u, rfl⟩ : ∃ u', u = u' + 1 := ⟨u - 1, by omega⟩
      rw [a3 u (by omega)]; exact hW u v (by omega) (by omega)

theorem sp_inserted (W W' : Nat → K) (i N : Nat) (x : K) (hI : Inserted W W' i x) (hi : i < N) (hx : x < W N) (y : K) (e : Nat)
    (he : Sp W N y e) : ∃ e', Sp W' (N + 1) y e' ∧ SpanMap i e e' := by
  obtain ⟨a1, a2, a3⟩ := hI
  obtain ⟨b1, b2, b3, b4⟩ := he
  rcases Nat.lt_trichotomy e i with q | q | q
  · refine ⟨e, ⟨by omega, by rw [a1 e (by omega), a1 (e + 1) (by omega)]; exact b2, by rw [a1 e (by omega)]; exact b3, ?_⟩, Or.inl ⟨q, rfl⟩⟩
    rcases b4 with b4 | b4
    · left; rw [a1 (e + 1) (by omega)]; exact b4
    · omega
  · subst q
    have h2 : W' (e + 1 + 1) = W (e + 1) := a3 (e + 1) (by omega)
    rcases le_or_gt x y with hxy | hxy
    · refine ⟨e + 1, ⟨by omega, ?_, by rw [a2]; exact hxy, ?_⟩, Or.inr (Or.inl ⟨rfl, Or.inr rfl⟩)⟩
      · rw [a2, h2]
        rcases b4 with b4 | ⟨b4, b5⟩
        · exact lt_of_le_of_lt hxy b4
        · rw [b4]; exact hx
      · rw [h2]
        rcases b4 with b4 | ⟨b4, b5⟩
        · exact Or.inl b4
        · right; rw [a3 N (by omega)]; exact ⟨by omega, b5⟩
    · exact ⟨e, ⟨by omega, by rw [a1 e (le_refl _), a2]; exact lt_of_le_of_lt b3 hxy, by rw [a1 e (le_refl _)]; exact b3,
        Or.inl (by rw [a2]; exact hxy)⟩, Or.inr (Or.inl ⟨rfl, Or.inl rfl⟩)⟩
  · refine ⟨e + 1, ⟨by omega, by rw [a3 e q, a3 (e + 1) (by omega)]; exact b2, by rw [a3 e q]; exact b3, ?_⟩, Or.inr (Or.inr ⟨q, rfl⟩)⟩
    rw [a3 (e + 1) (by omega)]
    rcases b4 with b4 | ⟨b4, b5⟩
    · exact Or.inl b4
    · right; rw [a3 N (by omega)]; exact ⟨by omega, b5⟩

/-- A block of equal knots is counted. -/
theorem count_block (W : Nat → K) (M s q : Nat) (x : K) (h : ∀ l, l < q → W (s + l) = x) (hs : s + q ≤ M) : q ≤ (kl W M).count x := by
  obtain ⟨d, rfl⟩ : ∃ d, M = s + (q + d) := ⟨M - (s + q), by omega⟩
  rw [kl, List.range_add, List.map_append, List.count_append, List.range_add, List.map_append, List.map_append, List.count_append]
  have : (((List.range q).map (fun x => s + x)).map W).count x = q := by
    have e : ((List.range q).map (fun x => s + x)).map W = (List.range q).map fun _ => x := by
      rw [List.map_map]
      exact List.map_congr_left (fun l hl => h l (List.mem_range.1 hl))
    rw [e]
    simp
  omega

/-! ## All of them -/

section ordered
variable [IsStrictOrderedRing K]

/-- The knots given can be inserted: in order, inside of the domain, told apart from other knots by the tolerance, and no more of
them than the degree allows. -/
structure Refinable (c : Curve K) (tol : K) (X : List K) : Prop where
  ne : X ≠ []
  sorted : X.Pairwise (· ≤ ·)
  lo : ∀ x ∈ X, c.U c.degree ≤ x
  hi : ∀ x ∈ X, x < c.U c.n
  tolpos : 0 < tol
  sep : ∀ x ∈ X, ∀ u ∈ kl c.U c.m ++ X, |u - x| < tol → u = x
  mult : ∀ x ∈ X, (kl c.U c.m ++ X).count x ≤ c.degree

/-- What holds when the knots `ys`, last first, remain to be inserted and `zs` have been. -/
structure Inv (c : Curve K) (a : Nat) (P : Nat → K) (zs ys : List K) (s : St K) : Prop where
  k : s.k = s.i + ys.length
  ai : a ≤ s.i
  Q : ∀ l, l + c.degree < a → s.Q l = P l
  V : ∀ l, l ≤ a → s.V l = c.U l
  up : ∀ y ∈ ys, y ≤ knotsOf s.i ys.length c.U s.V (s.i + 1)
  mono : MonoUpTo (knotsOf s.i ys.length c.U s.V) (c.m + zs.length)
  perm : (kl (knotsOf s.i ys.length c.U s.V) (c.m + zs.length)).Perm (zs ++ kl c.U c.m)
  last : knotsOf s.i ys.length c.U s.V (c.n + zs.length) = c.U c.n
  last' : knotsOf s.i ys.length c.U s.V (c.n + zs.length - 1) < c.U c.n
  val : ∀ x e, Sp c.U c.n x e → ∃ e', Sp (knotsOf s.i ys.length c.U s.V) (c.n + zs.length) x e' ∧
    spline (knotsOf s.i ys.length c.U s.V) c.degree (c.n + zs.length) (ptsOf c.degree s.i ys.length P s.Q) x e' =
      spline c.U c.degree c.n P x e
  box : ∀ lo hi, (∀ l, l < c.n → lo ≤ P l ∧ P l ≤ hi) → ∀ l, l < c.n + zs.length →
    lo ≤ ptsOf c.degree s.i ys.length P s.Q l ∧ ptsOf c.degree s.i ys.length P s.Q l ≤ hi
  im : s.i < c.m
  stop : ∀ z zs', zs = z :: zs' → s.i = a ∨ c.U s.i < z

theorem inv_step (c : Curve K) (hc : Valid c) (tol : K) (X : List K) (hX : Refinable c tol X) (a : Nat) (hpa : c.degree ≤ a) (han : a < c.n)
    (ha : ∀ x ∈ X, c.U a ≤ x) (P : Nat → K) (zs ys : List K) (y : K) (s : St K) (hs : Inv c a P zs (y :: ys) s)
    (hperm : (zs ++ y :: ys).Perm X) (hys : ∀ z ∈ ys, z ≤ y) :
    Inv c a P (y :: zs) ys (insertOne tol c.degree a c.U P s y) := by
  have hn := hc.npos
  have hm := hc.knots
  have hyX : y ∈ X := hperm.subset (by simp)
  obtain ⟨i, e1, e2, e3, e4, e5, e6, e7, e8, e9⟩ := insert_spec tol c.degree a c.U P y hpa ys.length s hs.ai hs.k
  have e9 := e9 _ _ _ _ rfl rfl rfl rfl
  set t := insertOne tol c.degree a c.U P s y with ht
  have hL : (y :: ys).length = ys.length + 1 := rfl
  have up := hs.up
  have mono := hs.mono
  have perm := hs.perm
  have last := hs.last
  have last' := hs.last'
  have val := hs.val
  rw [hL] at up mono perm last last' val
  rw [← e1] at e9
  set W := knotsOf s.i (ys.length + 1) c.U s.V with hW
  set R := ptsOf c.degree s.i (ys.length + 1) P s.Q with hR
  set W' := knotsOf t.i ys.length c.U t.V with hW'
  set R' := ptsOf c.degree t.i ys.length P t.Q with hR'
  rw [e1] at e9
  obtain ⟨hI, hB⟩ := e9
  have hWU : ∀ l, l ≤ s.i → W l = c.U l := fun l hl => by rw [hW, knotsOf, if_pos hl]
  have hin : i < c.n := by
    rcases e5 with h | h
    · omega
    · by_contra hcon
      have h1 := hX.hi y hyX
      exact absurd (lt_trans h h1) (not_lt.2 (hc.mono c.n i (by omega) (lt_of_le_of_lt e4 hs.im)))
  have hlo : W i ≤ y := by
    rw [hWU i e4]
    rcases e5 with h | h
    · rw [h]; exact ha y hyX
    · exact h.le
  have hup : y ≤ W (i + 1) := by
    rcases e6 with h | h
    · rw [h]; exact up y (by simp)
    · by_cases h2 : i = s.i
      · rw [h2]; exact up y (by simp)
      · rw [hWU (i + 1) (by omega)]; exact h
  have hyn : y < W (c.n + zs.length) := by rw [last]; exact hX.hi y hyX
  have hsub : ∀ u ∈ kl W (c.m + zs.length), u ∈ kl c.U c.m ++ X := by
    intro u hu
    have := perm.subset hu
    rw [List.mem_append] at this ⊢
    rcases this with h | h
    · exact Or.inr (hperm.subset (by simp [h]))
    · exact Or.inl h
  have hcount : (kl W (c.m + zs.length)).count y + 1 ≤ c.degree := by
    have h1 := perm.count_eq y
    have h2 := hX.mult y hyX
    have h3 := hperm.count_eq y
    rw [List.count_append] at h1 h2 h3
    rw [List.count_cons_self] at h3
    omega
  have hB := hB (by
    intro l hl1 hl2
    refine ⟨hX.sep y hyX _ (hsub _ (mem_kl W _ _ (by omega))), ?_⟩
    intro h0
    have h0 := sub_eq_zero.1 h0
    have hle : ∀ d, d < c.degree + 1 → W (i - c.degree + l + d) = y := by
      intro d hd
      have g1 := mono (i - c.degree + l) (i - c.degree + l + d) (by omega) (by omega)
      have g2 := mono (i - c.degree + l + d) (i + l) (by omega) (by omega)
      have g3 := mono (i - c.degree + l) i (by omega) (by omega)
      have g4 := mono (i + 1) (i + l) (by omega) (by omega)
      rw [← h0] at g1 g3
      have g5 : W (i + l) = y := le_antisymm (le_trans g3 hlo) (le_trans hup g4)
      rw [g5] at g1 g2
      exact le_antisymm g2 g1
    have := count_block W (c.m + zs.length) (i - c.degree + l) (c.degree + 1) y hle (by omega)
    omega)
  have hmono' : MonoUpTo W' (c.m + zs.length + 1) := inserted_mono W W' i _ y hI (by omega) mono hlo hup
  have hperm' := kl_inserted W W' i (c.m + zs.length) y hI (by omega)
  refine ⟨by rw [e1]; exact e2, by rw [e1]; exact e3, fun l hl => by rw [e7 l hl]; exact hs.Q l hl, fun l hl => by rw [e8 l hl]; exact hs.V l hl,
    ?_, ?_, ?_, ?_, ?_, ?_, ?_, ?_, ?_⟩
  · intro z hz
    show z ≤ W' (t.i + 1)
    rw [e1, hI.2.1]
    exact hys z hz
  · exact hmono'
  · exact hperm'.trans (perm.cons y)
  · show W' (c.n + (zs.length + 1)) = _
    rw [← Nat.add_assoc, hI.2.2 _ (by omega), last]
  · show W' (c.n + (zs.length + 1) - 1) < _
    by_cases h : i = c.n + zs.length - 1
    · rw [show c.n + (zs.length + 1) - 1 = i + 1 by omega, hI.2.1]
      exact hX.hi y hyX
    · rw [show c.n + (zs.length + 1) - 1 = c.n + zs.length - 1 + 1 by omega, hI.2.2 _ (by omega)]
      exact last'
  · intro x e he
    obtain ⟨e', he', hv⟩ := val x e he
    obtain ⟨e'', he'', hmap⟩ := sp_inserted W W' i _ y hI (by omega) hyn x e' he'
    refine ⟨e'', he'', ?_⟩
    rw [← hv, ← boehm_spline W W' (c.m + zs.length) i y hI hmono' e' e'' hmap he''.2.1 x c.degree (c.n + zs.length) (by omega) (by omega) (by omega) R]
    exact spline_const W' c.degree _ _ _ x e'' (fun l _ => hB l)
  · intro lo hi hP l hl
    have hR := hs.box lo hi hP
    rw [hL] at hR
    show lo ≤ R' l ∧ R' l ≤ hi
    rw [hB l, boehmPts]
    have hl' : l < c.n + zs.length + 1 := hl
    rw [ratio]
    split
    · have := hR l (by omega)
      rw [one_mul, sub_self, zero_mul, add_zero]; exact this
    · split
      · rename_i g1 g2
        have h1 := hR l (by omega)
        have h2 := hR (l - 1) (by omega)
        have w1 : W' l ≤ y := by
          rw [hI.1 l g2]; exact le_trans (mono l i g2 (by omega)) hlo
        have w2 : y ≤ W' (l + c.degree + 1) := by
          rw [hI.2.2 _ (by omega)]; exact le_trans hup (mono (i + 1) _ (by omega) (by omega))
        have r0 : 0 ≤ (y - W' l) / (W' (l + c.degree + 1) - W' l) :=
          div_nonneg (sub_nonneg.2 w1) (sub_nonneg.2 (le_trans w1 w2))
        have r1 : (y - W' l) / (W' (l + c.degree + 1) - W' l) ≤ 1 :=
          div_le_one_of_le₀ (sub_le_sub_right w2 _) (sub_nonneg.2 (le_trans w1 w2))
        set r := (y - W' l) / (W' (l + c.degree + 1) - W' l)
        have r2 : 0 ≤ 1 - r := sub_nonneg.2 r1
        have a1 := mul_le_mul_of_nonneg_left h1.1 r0
        have a2 := mul_le_mul_of_nonneg_left h1.2 r0
        have a3 := mul_le_mul_of_nonneg_left h2.1 r2
        have a4 := mul_le_mul_of_nonneg_left h2.2 r2
        constructor
        · linarith
        · linarith
      · have := hR (l - 1) (by omega)
        rw [zero_mul, zero_add, sub_zero, one_mul]; exact this
  · rw [e1]
    exact lt_of_le_of_lt e4 hs.im
  · intro z zs' hz
    rw [List.cons.injEq] at hz
    rw [e1, ← hz.1]
    exact e5

theorem inv_start (c : Curve K) (hc : Valid c) (tol : K) (X : List K) (hX : Refinable c tol X) (a b : Nat)
    (hab : a + 1 ≤ b + c.degree) (hb1 : 1 ≤ b) (hbn : b ≤ c.n) (hup : ∀ x ∈ X, x ≤ c.U (b + c.degree)) (P : Nat → K)
    (hpa : c.degree ≤ a) : Inv c a P [] X.reverse (start c.degree a b (X.length - 1) c.U P) := by
  have hn := hc.npos
  have hm := hc.knots
  have hlen : 0 < X.length := List.length_pos_iff.2 hX.ne
  have hW : knotsOf (start c.degree a b (X.length - 1) c.U P).i X.reverse.length c.U (start c.degree a b (X.length - 1) c.U P).V = c.U := by
    funext l
    simp only [knotsOf, start, List.length_reverse]
    split
    · rfl
    · rw [if_pos (by omega)]
      congr 1; omega
  have hR : ptsOf c.degree (start c.degree a b (X.length - 1) c.U P).i X.reverse.length P (start c.degree a b (X.length - 1) c.U P).Q = P := by
    funext l
    simp only [ptsOf, start, List.length_reverse]
    split
    · rfl
    · rw [if_pos (by omega)]
      congr 1; omega
  refine ⟨?_, ?_, ?_, ?_, ?_, ?_, ?_, ?_, ?_, ?_, ?_, ?_, ?_⟩
  · simp only [start, List.length_reverse]; omega
  · simp only [start]; omega
  · intro l hl
    simp only [start]
    rw [if_neg (by omega), if_pos (by omega)]
  · intro l hl
    simp only [start]
    rw [if_neg (by omega), if_pos (by omega)]
  · intro y hy
    rw [hW]
    have := hup y (List.mem_reverse.1 hy)
    simp only [start]
    rw [show b + c.degree - 1 + 1 = b + c.degree by omega]; exact this
  · rw [hW]; exact hc.mono
  · rw [hW]; exact List.Perm.refl _
  · rw [hW]; rfl
  · rw [hW]; exact hc.last
  · intro x e he
    rw [hW, hR]
    exact ⟨e, he, rfl⟩
  · intro lo hi h l hl
    rw [hR]; exact h l hl
  · simp only [start]; omega
  · intro z zs' h; simp at h

/-- The loop run to the end. -/
theorem inv_all (c : Curve K) (hc : Valid c) (tol : K) (X : List K) (hX : Refinable c tol X) (a : Nat) (hpa : c.degree ≤ a) (han : a < c.n)
    (ha : ∀ x ∈ X, c.U a ≤ x) (P : Nat → K) : ∀ (ys zs : List K) (s : St K), Inv c a P zs ys s →
    (zs ++ ys).Perm X → ys.Pairwise (· ≥ ·) →
    Inv c a P (ys.reverse ++ zs) [] (ys.foldl (insertOne tol c.degree a c.U P) s) := by
  intro ys
  induction ys with
  | nil => intro zs s hs _ _; exact hs
  | cons y ys ih =>
    intro zs s hs hperm hsort
    rw [List.pairwise_cons] at hsort
    have h := inv_step c hc tol X hX a hpa han ha P zs ys y s hs hperm (fun z hz => hsort.1 z hz)
    have := ih (y :: zs) _ h (List.perm_middle.symm.trans hperm) hsort.2
    rw [List.reverse_cons, List.append_assoc]
    exact this

/-- The knots do not depend on the column. -/
theorem refine_V (tol : K) (p a b : Nat) (U P P' : Nat → K) (X : List K) :
    (refineCol tol p a b U P X).V = (refineCol tol p a b U P' X).V := by
  have hsh : ∀ (x : K) (i k : Nat) (Q Q' V : Nat → K), (shift p a U P x i k Q V).i = (shift p a U P' x i k Q' V).i ∧
      (shift p a U P x i k Q V).k = (shift p a U P' x i k Q' V).k ∧ (shift p a U P x i k Q V).V = (shift p a U P' x i k Q' V).V := by
    intro x i
    induction i with
    | zero => intro k Q Q' V; exact ⟨rfl, rfl, rfl⟩
    | succ i ih =>
      intro k Q Q' V
      simp only [shift]
      split
      · exact ih _ _ _ _
      · exact ⟨rfl, rfl, rfl⟩
  have hfold : ∀ (ys : List K) (s s' : St K), s.i = s'.i → s.k = s'.k → s.V = s'.V →
      (ys.foldl (insertOne tol p a U P) s).V = (ys.foldl (insertOne tol p a U P') s').V := by
    intro ys
    induction ys with
    | nil => intro s s' _ _ h; exact h
    | cons y ys ih =>
      intro s s' h1 h2 h3
      obtain ⟨g1, g2, g3⟩ := hsh y s.i s.k s.Q s'.Q s.V
      apply ih
      · simp only [insertOne]; rw [← h1, ← h2, ← h3]; exact g1
      · simp only [insertOne]; rw [← h1, ← h2, ← h3, g2]
      · simp only [insertOne]; rw [← h1, ← h2, ← h3, g2, g3]
  exact hfold _ _ _ rfl rfl rfl

/-- `d` has the knots of `c` and those of `X`, and every column gives the same spline. -/
structure Refined (c d : Curve K) (X : List K) : Prop where
  valid : Valid d
  degree : d.degree = c.degree
  per : d.periodic = c.periodic
  n : d.n = c.n + X.length
  m : d.m = c.m + X.length
  perm : (kl d.U d.m).Perm (X ++ kl c.U c.m)
  lo : d.U d.degree = c.U c.degree
  hi : d.U d.n = c.U c.n
  val : ∀ col x, c.U c.degree ≤ x → x ≤ c.U c.n → specVal d (fun l => d.P l col) x = specVal c (fun l => c.P l col) x
  box : ∀ col lo hi, (∀ l, l < c.n → lo ≤ c.P l col ∧ c.P l col ≤ hi) → ∀ l, l < d.n → lo ≤ d.P l col ∧ d.P l col ≤ hi

theorem refined (c : Curve K) (hc : Valid c) (tol : K) (x0 : K) (X' : List K) (hX : Refinable c tol (x0 :: X')) (a b : Nat)
    (hpa : c.degree ≤ a) (han : a < c.n) (ha : c.U a ≤ x0) (ha' : x0 < c.U (a + 1))
    (hab : a + 1 ≤ b + c.degree) (hb1 : 1 ≤ b) (hbn : b ≤ c.n) (hup : ∀ x ∈ x0 :: X', x ≤ c.U (b + c.degree)) :
    Refined c { c with
      n := c.n + (x0 :: X').length
      m := c.m + (x0 :: X').length
      P := fun row col => (refineCol tol c.degree a b c.U (fun l => c.P l col) (x0 :: X')).Q row
      U := (refineCol tol c.degree a b c.U (fun l => c.P l 0) (x0 :: X')).V } (x0 :: X') := by
  set X := x0 :: X' with hXd
  have hn := hc.npos
  have hm := hc.knots
  have hge : ∀ x ∈ X, c.U a ≤ x := by
    intro x hx
    have hs := hX.sorted
    rw [hXd, List.pairwise_cons] at hs
    rcases List.mem_cons.1 hx with h | h
    · rw [h]; exact ha
    · exact le_trans ha (hs.1 x h)
  have key : ∀ P : Nat → K, Inv c a P X [] (refineCol tol c.degree a b c.U P X) := by
    intro P
    have := inv_all c hc tol X hX a hpa han hge P X.reverse [] _ (inv_start c hc tol X hX a b hab hb1 hbn hup P hpa)
      (List.reverse_perm X) (by rw [List.pairwise_reverse]; exact hX.sorted)
    rw [List.reverse_reverse, List.append_nil] at this
    exact this
  have hi : ∀ P : Nat → K, (refineCol tol c.degree a b c.U P X).i = a := by
    intro P
    have h := key P
    rcases h.stop x0 X' hXd with h1 | h1
    · exact h1
    · have h2 := h.ai
      by_contra hcon
      have := hc.mono (a + 1) _ (by omega) h.im
      exact absurd (lt_of_lt_of_le ha' this) (not_lt.2 h1.le)
  have hWV : ∀ P : Nat → K, knotsOf (refineCol tol c.degree a b c.U P X).i ([] : List K).length c.U (refineCol tol c.degree a b c.U P X).V =
      (refineCol tol c.degree a b c.U P X).V := by
    intro P
    funext l
    rw [knotsOf, hi P]
    split
    · rename_i h; exact ((key P).V l h).symm
    · rfl
  have hRQ : ∀ P : Nat → K, ptsOf c.degree (refineCol tol c.degree a b c.U P X).i ([] : List K).length P (refineCol tol c.degree a b c.U P X).Q =
      (refineCol tol c.degree a b c.U P X).Q := by
    intro P
    funext l
    rw [ptsOf, hi P]
    split
    · rename_i h; exact ((key P).Q l h).symm
    · rfl
  have k0 := key (fun l => c.P l 0)
  have hv : Valid ({ c with
      n := c.n + X.length
      m := c.m + X.length
      P := fun row col => (refineCol tol c.degree a b c.U (fun l => c.P l col) X).Q row
      U := (refineCol tol c.degree a b c.U (fun l => c.P l 0) X).V } : Curve K) := by
    refine ⟨by show c.degree < c.n + X.length; omega, by show c.m + X.length = c.n + X.length + c.degree + 1; omega, ?_, ?_⟩
    · have := k0.mono; rw [hWV] at this; exact this
    · have h1 := k0.last; have h2 := k0.last'; rw [hWV] at h1 h2
      show (refineCol tol c.degree a b c.U (fun l => c.P l 0) X).V (c.n + X.length - 1) < (refineCol tol c.degree a b c.U (fun l => c.P l 0) X).V (c.n + X.length)
      rw [h1]; exact h2
  refine ⟨hv, rfl, rfl, rfl, rfl, ?_, ?_, ?_, ?_, ?_⟩
  · have := k0.perm; rw [hWV] at this; exact this
  · exact k0.V c.degree hpa
  · have := k0.last; rw [hWV] at this; exact this
  · intro col x h1 h2
    obtain ⟨e, _, _, he⟩ := findSpan_sp c.n c.n c.degree x c.U hn (le_refl _) c.m hc.mono (by omega) hc.last h1 h2
    obtain ⟨e', he', hval⟩ := (key (fun l => c.P l col)).val x e he
    rw [hWV, hRQ] at hval
    rw [hWV] at he'
    rw [refine_V tol c.degree a b c.U _ (fun l => c.P l 0) X] at hval he'
    rw [specVal_eq c hc _ x e he, specVal_eq _ hv _ x e' he']
    exact hval
  · intro col lo hi' h l hl
    have := (key (fun l => c.P l col)).box lo hi' h l hl
    rw [hRQ] at this
    exact this

end ordered
end Verif.Rfn
