import Verif.Knot.Model
import Verif.Nurbs.Props4

/-! Two clamped curves glued at a common end. -/

set_option linter.unusedSectionVars false

namespace Verif.Knot
open Verif.Nurbs Finset

variable {K : Type} [Field K] [LinearOrder K]

theorem bspl_congr (U V : Nat → K) (n m : Nat) (x : K) (h : ∀ k, k < m → U k = V k) (hn : n < m) :
    ∀ p l, l + p + 1 < m → bspl U n x p l = bspl V n x p l := by
  intro p
  induction p with
  | zero =>
    intro l hl
    rw [bspl, bspl, bspl0, bspl0, h l (by omega), h (l + 1) (by omega), h n hn]
  | succ p ih =>
    intro l hl
    rw [bspl, bspl, ih l (by omega), ih (l + 1) (by omega), h l (by omega), h (l + p + 1) (by omega),
      h (l + p + 2) (by omega), h (l + 1) (by omega)]

theorem mono_congr (U V : Nat → K) (m : Nat) (h : ∀ k, k < m → U k = V k) (hU : MonoUpTo U m) : MonoUpTo V m := by
  intro a b hab hb
  rw [← h a (by omega), ← h b hb]
  exact hU a b hab hb

/-- A well formed non-periodic curve of positive degree whose first and last `degree + 1` knots coincide and whose first
span is not empty. -/
structure Clamped (c : Curve K) : Prop where
  valid : Valid c
  deg : 1 ≤ c.degree
  nonper : c.periodic = false
  lo : c.U 0 = c.U c.degree
  hi : c.U (c.m - 1) = c.U c.n
  start : c.U c.degree < c.U (c.degree + 1)

theorem Clamped.lo_eq {c : Curve K} (h : Clamped c) (k : Nat) (hk : k ≤ c.degree) : c.U k = c.U c.degree := by
  have h1 := h.valid.npos
  have h2 := h.valid.knots
  refine le_antisymm (h.valid.mono k c.degree hk (by omega)) ?_
  rw [← h.lo]
  exact h.valid.mono 0 k (by omega) (by omega)

theorem Clamped.hi_eq {c : Curve K} (h : Clamped c) (k : Nat) (hk : c.n ≤ k) (hm : k < c.m) : c.U k = c.U c.n := by
  have h1 := h.valid.npos
  have h2 := h.valid.knots
  refine le_antisymm ?_ (h.valid.mono c.n k hk hm)
  rw [← h.hi]
  exact h.valid.mono k (c.m - 1) (by omega) (by omega)

/-- `d` is `c1` followed by `c2` with the first knot and the first point of `c2` left out. -/
structure Glued (c1 c2 d : Curve K) : Prop where
  degree : d.degree = c1.degree
  n : d.n = c1.n + (c2.n - 1)
  m : d.m = c1.n + (c2.m - 1)
  nonper : d.periodic = false
  U1 : ∀ k, k < c1.n → d.U k = c1.U k
  U2 : ∀ k, c1.n ≤ k → k < d.m → d.U k = c2.U (k - c1.n + 1)
  P1 : ∀ i, i < c1.n → ∀ col, d.P i col = c1.P i col
  P2 : ∀ i, c1.n ≤ i → i < d.n → ∀ col, d.P i col = c2.P (i - c1.n + 1) col

section
variable [IsStrictOrderedRing K]

theorem glue (c1 c2 d : Curve K) (h1 : Clamped c1) (h2 : Clamped c2) (hdeg : c2.degree = c1.degree)
    (hU : c2.U 0 = c1.U c1.n) (hP : ∀ col, c2.P 0 col = c1.P (c1.n - 1) col) (hd : Glued c1 c2 d) :
    Clamped d ∧ d.U d.degree = c1.U c1.degree ∧ d.U d.n = c2.U c2.n ∧
    (∀ col, d.P (d.n - 1) col = c2.P (c2.n - 1) col) ∧
    (∀ x, c1.U c1.degree ≤ x → x ≤ c1.U c1.n → ∀ col,
      specVal d (fun l => d.P l col) x = specVal c1 (fun l => c1.P l col) x) ∧
    (∀ x, c2.U c2.degree ≤ x → x ≤ c2.U c2.n → ∀ col,
      specVal d (fun l => d.P l col) x = specVal c2 (fun l => c2.P l col) x) := by
  have n1 := h1.valid.npos
  have n2 := h2.valid.npos
  have k1 := h1.valid.knots
  have k2 := h2.valid.knots
  have p1 := h1.deg
  have dn := hd.n
  have dm := hd.m
  have dd := hd.degree
  obtain ⟨q, hq⟩ : ∃ q, c1.n = q + 1 := ⟨c1.n - 1, by omega⟩
  have hU2 : ∀ j, 1 ≤ j → j < c2.m → d.U (q + j) = c2.U j := by
    intro j hj hjm
    rw [hd.U2 (q + j) (by omega) (by omega)]
    congr 1; omega
  have hb : ∀ k, q < k → k ≤ q + c1.degree → d.U k = c1.U c1.n := by
    intro k hk1 hk2
    obtain ⟨j, rfl⟩ : ∃ j, k = q + j := ⟨k - q, by omega⟩
    rw [hU2 j (by omega) (by omega), h2.lo_eq j (by omega), ← h2.lo, hU]
  have hmono : MonoUpTo d.U d.m := by
    apply monoUpTo_of_step
    intro k hk
    by_cases c : k + 1 < c1.n
    · rw [hd.U1 k (by omega), hd.U1 (k + 1) c]
      exact h1.valid.mono k (k + 1) (by omega) (by omega)
    · by_cases c' : k + 1 = c1.n
      · rw [hd.U1 k (by omega), hb (k + 1) (by omega) (by omega)]
        exact h1.valid.mono k c1.n (by omega) (by omega)
      · obtain ⟨j, rfl⟩ : ∃ j, k = q + j := ⟨k - q, by omega⟩
        rw [hU2 j (by omega) (by omega), show q + j + 1 = q + (j + 1) by omega, hU2 (j + 1) (by omega) (by omega)]
        exact h2.valid.mono j (j + 1) (by omega) (by omega)
  have hdn : d.n = q + c2.n := by omega
  have hv : Valid d := by
    refine ⟨by omega, by omega, hmono, ?_⟩
    rw [hdn, show q + c2.n - 1 = q + (c2.n - 1) by omega, hU2 _ (by omega) (by omega), hU2 _ (by omega) (by omega)]
    exact h2.valid.last
  have hlow : d.U c1.degree = c1.U c1.degree := hd.U1 _ n1
  have hend : d.U d.n = c2.U c2.n := by rw [hdn, hU2 _ (by omega) (by omega)]
  have hcl : Clamped d := by
    refine ⟨hv, by omega, hd.nonper, ?_, ?_, ?_⟩
    · rw [dd, hd.U1 0 (by omega), hlow, h1.lo]
    · rw [hend, show d.m - 1 = q + (c2.m - 1) by omega, hU2 _ (by omega) (by omega), h2.hi]
    · rw [dd, hlow]
      by_cases c : c1.degree + 1 < c1.n
      · rw [hd.U1 _ c]; exact h1.start
      · rw [hb _ (by omega) (by omega)]
        have := h1.start
        rw [show c1.degree + 1 = c1.n by omega] at this
        exact this
  have hbn : c1.U c1.n < c2.U (c2.degree + 1) := by
    rw [← hU, h2.lo]; exact h2.start
  have hbe : c1.U c1.n ≤ c2.U c2.n := le_trans (le_of_lt hbn) (h2.valid.mono _ _ (by omega) (by omega))
  have hab : c1.U c1.degree ≤ c1.U c1.n := h1.valid.mono _ _ (by omega) (by omega)
  have h3' : c1.U c1.n < d.U (q + c1.degree + 1) := by
    rw [show q + c1.degree + 1 = q + (c1.degree + 1) by omega, hU2 _ (by omega) (by omega), ← hdeg]
    exact hbn
  refine ⟨hcl, by rw [dd, hlow], hend, fun col => ?_, fun x hx1 hx2 col => ?_, fun x hx1 hx2 col => ?_⟩
  · rw [hd.P2 (d.n - 1) (by omega) (by omega)]
    congr 1; omega
  · obtain ⟨i, _, hpi, hsp⟩ := findSpan_sp d.n d.n d.degree x d.U hv.npos (le_refl _) d.m hv.mono (by omega) hv.last
      (by rw [dd, hlow]; exact hx1) (by rw [hend]; exact le_trans hx2 hbe)
    obtain ⟨i', hsp', hs⟩ := split_first d.U d.m c1.degree d.n q hmono (by omega) (by omega) (c1.U c1.n)
      (by rw [hd.U1 q (by omega)]; have := h1.valid.last; rw [show c1.n - 1 = q by omega] at this; exact this)
      hb h3' (fun l => d.P l col) x i hsp hx2 (by omega) p1
    have hW : ∀ k, k < c1.m → c1.U k = (fun k => if k < q + c1.degree + 1 then d.U k else c1.U c1.n) k := by
      intro k hk
      by_cases c : k < q + c1.degree + 1
      · show c1.U k = if k < q + c1.degree + 1 then d.U k else c1.U c1.n
        rw [if_pos c]
        by_cases c' : k < c1.n
        · rw [hd.U1 k c']
        · rw [hb k (by omega) (by omega), h1.hi_eq k (by omega) hk]
      · show c1.U k = if k < q + c1.degree + 1 then d.U k else c1.U c1.n
        rw [if_neg c, h1.hi_eq k (by omega) hk]
    rw [← hq] at hsp' hs
    rw [specVal_eq d hv _ x i hsp, dd, ← hs, specVal, spline]
    refine sum_congr rfl fun l hl => ?_
    have hl' := mem_range.mp hl
    rw [hd.P1 l (by omega)]
    congr 1
    have e1 := bspl_congr c1.U _ c1.n c1.m x hW (by omega) c1.degree l (by omega)
    rw [e1]
    refine (bspl_eq _ c1.n c1.m (mono_congr _ _ _ hW h1.valid.mono) (by omega) ?_ x i' hsp' _ _).symm
    have hl2 := h1.valid.last
    have w1 := hW (c1.n - 1) (by omega)
    have w2 := hW c1.n (by omega)
    dsimp only at w1 w2
    rw [← w1, ← w2]
    exact hl2
  · have hbx : c1.U c1.n ≤ x := by rw [← hU, h2.lo]; exact hx1
    obtain ⟨i, _, hpi, hsp⟩ := findSpan_sp d.n d.n d.degree x d.U hv.npos (le_refl _) d.m hv.mono (by omega) hv.last
      (by rw [dd, hlow]; exact le_trans hab hbx) (by rw [hend]; exact hx2)
    obtain ⟨i', hsp', hs⟩ := split_second d.U d.m c1.degree d.n q hmono (by omega) (by omega) (c1.U c1.n)
      hb h3' (fun l => d.P l col) x i hsp hbx p1
    have hW : ∀ k, k < c2.m → c2.U k = (fun k => if k < c1.degree + 1 then c1.U c1.n else
        d.U (k - (c1.degree + 1) + (q + c1.degree + 1))) k := by
      intro k hk
      by_cases c : k < c1.degree + 1
      · show c2.U k = if k < c1.degree + 1 then c1.U c1.n else d.U (k - (c1.degree + 1) + (q + c1.degree + 1))
        rw [if_pos c, h2.lo_eq k (by omega), ← h2.lo, hU]
      · show c2.U k = if k < c1.degree + 1 then c1.U c1.n else d.U (k - (c1.degree + 1) + (q + c1.degree + 1))
        rw [if_neg c, show k - (c1.degree + 1) + (q + c1.degree + 1) = q + k by omega, hU2 k (by omega) hk]
    have hnq : d.n - q = c2.n := by omega
    rw [hnq] at hsp' hs
    rw [specVal_eq d hv _ x i hsp, dd, ← hs, specVal, spline]
    refine sum_congr rfl fun l hl => ?_
    have hl' := mem_range.mp hl
    have eP : d.P (l + q) col = c2.P l col := by
      by_cases c : l = 0
      · subst c
        rw [hP, hd.P1 _ (by omega)]
        congr 1; omega
      · rw [hd.P2 (l + q) (by omega) (by omega)]
        congr 1; omega
    rw [eP, hdeg]
    congr 1
    have e1 := bspl_congr c2.U _ c2.n c2.m x hW (by omega) c1.degree l (by omega)
    rw [e1]
    refine (bspl_eq _ c2.n c2.m (mono_congr _ _ _ hW h2.valid.mono) (by omega) ?_ x i' hsp' _ _).symm
    have hl2 := h2.valid.last
    rw [hW _ (by omega), hW c2.n (by omega)] at hl2
    exact hl2

/-- The curve that `composeCurves` would return if the loop stopped here. -/
def Acc.close (a : Acc K) (p : Nat) (b : K) : Curve K :=
  { degree := p, n := a.n, P := a.P, m := a.m + (p + 1), U := appendFn a.m a.U (fun _ => b), periodic := false }

theorem Acc.close_U (a : Acc K) (p : Nat) (b : K) (k : Nat) : (a.close p b).U k = appendFn a.m a.U (fun _ => b) k := rfl

theorem Acc.close_P (a : Acc K) (p : Nat) (b : K) (i col : Nat) : (a.close p b).P i col = a.P i col := rfl

/-- What the list of curves must satisfy: clamped, of the same degree, each starting where the one before ends. -/
def Chain (p : Nat) : List (Curve K) → Prop
  | [] => True
  | [c] => Clamped c ∧ c.degree = p
  | c :: d :: cs => (Clamped c ∧ c.degree = p) ∧ d.U 0 = c.U c.n ∧ (∀ col, d.P 0 col = c.P (c.n - 1) col) ∧ Chain p (d :: cs)

/-- The same curve up to values outside the arrays. -/
structure Agree (c d : Curve K) : Prop where
  degree : d.degree = c.degree
  n : d.n = c.n
  m : d.m = c.m
  U : ∀ k, k < c.m → d.U k = c.U k
  P : ∀ i col, d.P i col = c.P i col

/-- A property of curves that survives gluing. -/
def Glues (R : Curve K → Prop) : Prop :=
  (∀ c1 c2 d, Clamped c1 → Clamped c2 → Clamped d → c2.degree = c1.degree → c2.U 0 = c1.U c1.n → Glued c1 c2 d → R c1 → R c2 → R d) ∧
    ∀ c d, Clamped c → Agree c d → R c → R d

theorem compose_fold (p : Nat) : ∀ (cs : List (Curve K)) (c0 last : Curve K) (a : Acc K) (e : Curve K),
    e = a.close p (last.U (last.m - 1)) → 0 < a.m → a.m = a.n →
    Clamped e → e.U e.n = last.U last.n → (∀ col, e.P (e.n - 1) col = last.P (last.n - 1) col) →
    Chain p (last :: cs) →
    ∃ z, (last :: cs).getLast? = some z ∧ ∃ f, f = (cs.foldl composeStep a).close p (z.U (z.m - 1)) ∧ Clamped f ∧
      f.U f.degree = e.U e.degree ∧ f.U f.n = z.U z.n ∧
      (∀ x, e.U e.degree ≤ x → x ≤ e.U e.n → ∀ col,
        specVal f (fun l => f.P l col) x = specVal e (fun l => e.P l col) x) ∧
      (∀ c ∈ cs, ∀ x, c.U c.degree ≤ x → x ≤ c.U c.n → ∀ col,
        specVal f (fun l => f.P l col) x = specVal c (fun l => c.P l col) x) ∧
      (∀ w, (∀ l, l < e.n → e.P l 3 = w) → (∀ c ∈ cs, ∀ l, l < c.n → c.P l 3 = w) → ∀ l, l < f.n → f.P l 3 = w) ∧
      ∀ R : Curve K → Prop, Glues R → R e → (∀ c ∈ cs, R c) → R f := by
  intro cs
  induction cs with
  | nil =>
    intro c0 last a e he ham han hcl hend hP hch
    exact ⟨last, rfl, e, he, hcl, rfl, hend, fun _ _ _ _ => rfl, fun c hc => absurd hc List.not_mem_nil,
      fun _ h _ => h, fun _ _ h _ => h⟩
  | cons c cs ih =>
    intro c0 last a e he ham han hcl hend hP hch
    obtain ⟨⟨hl, hlp⟩, hU, hPP, hch'⟩ := hch
    have hc : Clamped c ∧ c.degree = p := by
      cases cs with
      | nil => exact hch'
      | cons _ _ => exact hch'.1
    have hed : e.degree = p := by rw [he]; rfl
    have hen : e.n = a.n := by rw [he]; rfl
    have hem : e.m = a.m + (p + 1) := by rw [he]; rfl
    have n2 := hc.1.valid.npos
    have k2 := hc.1.valid.knots
    have p2 := hc.1.deg
    have ha' : composeStep a c = { m := a.m + (c.m - (c.degree + 1) - 1), U := appendFn a.m a.U (fun k => c.U (k + 1)), n := a.n + (c.n - 1), P := appendFn a.n a.P (fun i => c.P (i + 1)) } := by
      rw [composeStep, if_neg (by omega)]
    have hg : Glued e c ((composeStep a c).close p (c.U (c.m - 1))) := by
      rw [ha']
      refine ⟨hed.symm, ?_, ?_, rfl, ?_, ?_, ?_, ?_⟩
      · show a.n + (c.n - 1) = _; omega
      · show a.m + (c.m - (c.degree + 1) - 1) + (p + 1) = _; omega
      · intro k hk
        rw [he, Acc.close_U, Acc.close_U]
        dsimp only
        rw [appendFn, if_pos (by omega), appendFn, if_pos (by omega), appendFn, if_pos (by omega)]
      · intro k hk1 hk2
        have hk2' : k < a.m + (c.m - (c.degree + 1) - 1) + (p + 1) := hk2
        rw [Acc.close_U, appendFn]
        dsimp only
        by_cases hk3 : k < a.m + (c.m - (c.degree + 1) - 1)
        · rw [if_pos hk3, appendFn, if_neg (by omega)]
          congr 1; omega
        · rw [if_neg hk3, hc.1.hi, hc.1.hi_eq (k - e.n + 1) (by omega) (by omega)]
      · intro i hi col
        rw [he, Acc.close_P, Acc.close_P]
        dsimp only
        rw [appendFn, if_pos (by omega)]
      · intro i hi1 hi2 col
        rw [Acc.close_P]
        dsimp only
        rw [appendFn, if_neg (by omega), hen]
    obtain ⟨g1, g2, g3, g4, g5, g6⟩ := glue e c _ hcl hc.1 (by omega) (by rw [hend, hU]) (fun col => by rw [hP, hPP]) hg
    obtain ⟨z, hz, f, f1, f2, f3, f4, f5, f6, f7, f8⟩ := ih c0 c (composeStep a c) _ rfl
      (by rw [ha']; show 0 < a.m + _; omega)
      (by rw [ha']; show a.m + (c.m - (c.degree + 1) - 1) = a.n + (c.n - 1); omega) g1 g3 g4 hch'
    have hdom1 : e.U e.degree ≤ e.U e.n := hcl.valid.mono _ _ (le_of_lt hcl.valid.npos) (by have := hcl.valid.knots; omega)
    have hdom2 : c.U c.degree ≤ c.U c.n := hc.1.valid.mono _ _ (le_of_lt n2) (by omega)
    have hmid : c.U c.degree = e.U e.n := by rw [← hc.1.lo, hU, hend]
    refine ⟨z, by rw [List.getLast?_cons_cons]; exact hz, f, f1, f2, by rw [f3, g2], f4, ?_, ?_, ?_,
      fun R hR r1 r2 => f8 R hR (hR.1 e c _ hcl hc.1 g1 (by omega) (by rw [hend, hU]) hg r1 (r2 c List.mem_cons_self))
        fun c' hc' => r2 c' (List.mem_cons_of_mem _ hc')⟩
    · intro x hx1 hx2 col
      rw [f5 x (by rw [g2]; exact hx1) (by rw [g3]; rw [← hmid] at hx2; exact le_trans hx2 hdom2) col, g5 x hx1 hx2 col]
    · intro c' hc' x hx1 hx2 col
      rcases List.mem_cons.mp hc' with rfl | h
      · rw [f5 x (by rw [g2]; rw [hmid] at hx1; exact le_trans hdom1 hx1) (by rw [g3]; exact hx2) col, g6 x hx1 hx2 col]
      · exact f6 c' h x hx1 hx2 col
    · intro w hw1 hw2
      refine f7 w (fun l hl => ?_) (fun c' hc' => hw2 c' (List.mem_cons_of_mem _ hc'))
      by_cases q : l < e.n
      · rw [hg.P1 l q]; exact hw1 l q
      · rw [hg.P2 l (by omega) hl]
        have := hg.n
        exact hw2 c List.mem_cons_self _ (by omega)

/-- Everything about the composition of a chain. -/
theorem compose_chain (p : Nat) (c : Curve K) (cs : List (Curve K)) (h : Chain p (c :: cs)) :
    ∃ z f, (c :: cs).getLast? = some z ∧ composeCurves p (c :: cs) = some f ∧ Clamped f ∧ f.degree = p ∧
      f.U f.degree = c.U c.degree ∧ f.U f.n = z.U z.n ∧
      (∀ d ∈ c :: cs, ∀ x, d.U d.degree ≤ x → x ≤ d.U d.n → ∀ col,
        specVal f (fun l => f.P l col) x = specVal d (fun l => d.P l col) x) ∧
      (∀ w, (∀ d ∈ c :: cs, ∀ l, l < d.n → d.P l 3 = w) → ∀ l, l < f.n → f.P l 3 = w) ∧
      ∀ R : Curve K → Prop, Glues R → (∀ d ∈ c :: cs, R d) → R f := by
  have hc : Clamped c ∧ c.degree = p := by
    cases cs with
    | nil => exact h
    | cons _ _ => exact h.1
  have hk := hc.1.valid.knots
  have hn := hc.1.valid.npos
  obtain ⟨a, ha⟩ : ∃ a : Acc K, a = composeStep ({ m := 0, U := fun _ => 0, n := 0, P := fun _ _ => 0 } : Acc K) c := ⟨_, rfl⟩
  have ha' : a = { m := c.m - (c.degree + 1), U := c.U, n := 0 + c.n, P := appendFn 0 (fun _ _ => 0) c.P } := by
    rw [ha, composeStep, if_pos rfl]
  have hn' : (a.close p (c.U (c.m - 1))).n = c.n := by rw [ha']; show 0 + c.n = c.n; omega
  have hm' : (a.close p (c.U (c.m - 1))).m = c.m := by
    rw [ha']; show c.m - (c.degree + 1) + (p + 1) = c.m; omega
  have hUe : ∀ k, k < c.m → (a.close p (c.U (c.m - 1))).U k = c.U k := by
    intro k hk'
    rw [ha', Acc.close_U, appendFn]
    dsimp only
    by_cases q : k < c.m - (c.degree + 1)
    · rw [if_pos q]
    · rw [if_neg q, hc.1.hi, hc.1.hi_eq k (by omega) hk']
  have hPe : ∀ i col, (a.close p (c.U (c.m - 1))).P i col = c.P i col := by
    intro i col
    rw [ha']
    rw [Acc.close_P]
    dsimp only
    rw [appendFn, if_neg (by omega)]; rfl
  have hcl : Clamped (a.close p (c.U (c.m - 1))) := by
    have hd' : (a.close p (c.U (c.m - 1))).degree = c.degree := hc.2.symm
    refine ⟨⟨by rw [hd', hn']; exact hn, by rw [hm', hn', hd']; exact hk, ?_, ?_⟩, by rw [hd']; exact hc.1.deg, rfl, ?_, ?_, ?_⟩
    · rw [hm']; exact mono_congr _ _ _ (fun k hk' => (hUe k hk').symm) hc.1.valid.mono
    · rw [hn', hUe _ (by omega), hUe _ (by omega)]; exact hc.1.valid.last
    · rw [hd', hUe _ (by omega), hUe _ (by omega)]; exact hc.1.lo
    · rw [hm', hn', hUe _ (by omega), hUe _ (by omega)]; exact hc.1.hi
    · rw [hd', hUe _ (by omega), hUe _ (by omega)]; exact hc.1.start
  obtain ⟨z, hz, f, f1, f2, f3, f4, f5, f6, f7, f8⟩ := compose_fold p cs c c a _ rfl (by rw [ha']; show 0 < c.m - (c.degree + 1); omega)
    (by rw [ha']; show c.m - (c.degree + 1) = 0 + c.n; omega) hcl
    (by rw [hn', hUe _ (by omega)]) (fun col => by rw [hPe, hn']) h
  have hzd : z.degree = p := by
    have : ∀ (cs : List (Curve K)) (c : Curve K), Chain p (c :: cs) → ∀ z, (c :: cs).getLast? = some z → z.degree = p := by
      intro cs
      induction cs with
      | nil =>
        intro c h z hz
        rw [List.getLast?_singleton, Option.some.injEq] at hz
        rw [← hz]; exact h.2
      | cons d ds ih =>
        intro c h z hz
        rw [List.getLast?_cons_cons] at hz
        exact ih d h.2.2.2 z hz
    exact this cs c h z hz
  have hd' : (a.close p (c.U (c.m - 1))).degree = c.degree := hc.2.symm
  refine ⟨z, f, hz, ?_, f2, by rw [f1]; rfl, by rw [f3, hd', hUe _ (by omega)], f4, fun d hd x hx1 hx2 col => ?_,
    fun w hw => f7 w (fun l hl => ?_) (fun d hd => hw d (List.mem_cons_of_mem _ hd)),
    fun R hR r => f8 R hR (hR.2 c _ hc.1 ⟨hd', hn', hm', hUe, hPe⟩ (r c List.mem_cons_self))
      fun d hd => r d (List.mem_cons_of_mem _ hd)⟩
  · rw [composeCurves, hz, f1]
    simp only [List.foldl_cons, ← ha, Acc.close, hzd]
  · rcases List.mem_cons.mp hd with rfl | h'
    · rw [f5 x (by rw [hd', hUe _ (by omega)]; exact hx1) (by rw [hn', hUe _ (by omega)]; exact hx2) col]
      rw [specVal, specVal, hn', hd']
      refine sum_congr rfl fun l hl => ?_
      have hl' := mem_range.mp hl
      rw [hPe, bspl_congr _ d.U d.n d.m x hUe (by omega) d.degree l (by omega)]
    · exact f6 d h' x hx1 hx2 col
  · rw [hPe]; exact hw c List.mem_cons_self l (by omega)

/-- All knots are in a set. -/
theorem glues_knots (S : K → Prop) : Glues (fun c : Curve K => ∀ k, k < c.m → S (c.U k)) := by
  refine ⟨fun c1 c2 d h1 h2 _ _ _ g r1 r2 k hk => ?_, fun c d _ g r k hk => ?_⟩
  · have k1 := h1.valid.knots
    have k2 := h2.valid.knots
    have gm := g.m
    by_cases q : k < c1.n
    · rw [g.U1 k q]; exact r1 k (by omega)
    · rw [g.U2 k (by omega) hk]; exact r2 _ (by omega)
  · rw [g.m] at hk
    rw [g.U k hk]
    exact r k hk

/-- No inner knot has a multiplicity above the degree. -/
theorem glues_nojump : Glues (NoJump (K := K)) := by
  refine ⟨fun c1 c2 d h1 h2 hd e1 e2 g r1 r2 j hj hj1 hj2 => ?_, fun c d hcl g r j hj hj1 hj2 => ?_⟩
  · have k1 := h1.valid.knots
    have k2 := h2.valid.knots
    have k3 := hd.valid.knots
    have n1 := h1.valid.npos
    have n2 := h2.valid.npos
    have p1 := h1.deg
    have gm := g.m
    have gn := g.n
    have gd := g.degree
    have hlow : d.U d.degree = c1.U c1.degree := by rw [gd]; exact g.U1 _ n1
    have hend : d.U d.n = c2.U c2.n := by
      rw [g.U2 d.n (by omega) (by omega)]; congr 1; omega
    rw [hlow] at hj1
    rw [hend] at hj2
    by_cases q : j < c1.n
    · rw [g.U1 j q] at hj1 ⊢
      have hb : c1.U j < c1.U c1.n := lt_of_le_of_lt (h1.valid.mono j (c1.n - 1) (by omega) (by omega)) h1.valid.last
      by_cases q' : j + d.degree < c1.n
      · rw [g.U1 _ q', gd]
        exact r1 j (by omega) hj1 hb
      · rw [g.U2 _ (by omega) hj]
        refine lt_of_lt_of_le hb ?_
        rw [← e2]
        exact h2.valid.mono 0 _ (by omega) (by omega)
    · rw [g.U2 j (by omega) (by omega)] at hj1 hj2 ⊢
      rw [g.U2 _ (by omega) hj]
      by_cases q' : j - c1.n + 1 ≤ c2.degree
      · rw [h2.lo_eq _ q']
        exact lt_of_lt_of_le h2.start (h2.valid.mono _ _ (by omega) (by omega))
      · rw [show j + d.degree - c1.n + 1 = j - c1.n + 1 + c2.degree by omega]
        exact r2 _ (by omega) (lt_of_lt_of_le h2.start (h2.valid.mono _ _ (by omega) (by omega))) hj2
  · have gd := g.degree
    have gm := g.m
    have gn := g.n
    have hnm : c.n < c.m := by have := hcl.valid.knots; omega
    rw [g.U _ (by omega), gd, g.U _ (by omega)] at hj1
    rw [g.U _ (by omega), gn, g.U _ hnm] at hj2
    rw [g.U _ (by omega), gd, g.U _ (by omega)]
    exact r j (by omega) hj1 hj2

end
end Verif.Knot
