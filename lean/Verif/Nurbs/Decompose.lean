import Verif.Nurbs.Surf
import Mathlib.Tactic.Linarith

/-! # Splitting at several parameters, column by column -/

set_option linter.unusedSectionVars false

namespace Verif.Nurbs
open Finset
variable {K : Type} [Field K] [LinearOrder K] [IsStrictOrderedRing K]

/-- `d` is a well formed curve on `[a, b]` whose columns are those of `c` there. -/
def ColPiece (c d : Curve K) (a b : K) : Prop :=
  Valid d ∧ d.degree = c.degree ∧ d.periodic = false ∧ d.n ≤ c.n + c.degree ∧ d.U d.degree = a ∧ d.U d.n = b ∧
    ∀ x, a ≤ x → x ≤ b → ∀ col, specVal d (fun l => d.P l col) x = specVal c (fun l => c.P l col) x

/-- Pieces in order covering `[a, b]` with breaks at the given parameters. -/
def ColPieces (c : Curve K) : List (Curve K) → K → List K → K → Prop
  | [d], a, [], b => ColPiece c d a b
  | d :: ds, a, t :: ts, b => ColPiece c d a t ∧ ColPieces c ds t ts b
  | _, _, _, _ => False

theorem ColPieces.mono {c d : Curve K} (hdeg : d.degree = c.degree) (hn : d.n ≤ c.n) (a0 : K)
    (hv : ∀ x, a0 ≤ x → x ≤ c.U c.n →
    ∀ col, specVal d (fun l => d.P l col) x = specVal c (fun l => c.P l col) x) : ∀ (ds : List (Curve K)) (ts : List K) (a b : K),
    a0 ≤ a → b ≤ c.U c.n → (∀ t ∈ ts, a0 ≤ t ∧ t ≤ b) → ColPieces d ds a ts b → ColPieces c ds a ts b := by
  intro ds
  induction ds with
  | nil => intro ts a b _ _ _ h; cases ts <;> exact h.elim
  | cons e es ih =>
    intro ts a b ha hb hts h
    cases ts with
    | nil =>
      cases es with
      | nil =>
        obtain ⟨h1, h2, h2', h2'', h3, h4, h5⟩ := h
        exact ⟨h1, by rw [h2, hdeg], h2', by omega, h3, h4, fun x hx1 hx2 col => by
          rw [h5 x hx1 hx2 col, hv x (le_trans ha hx1) (le_trans hx2 hb) col]⟩
      | cons _ _ => exact h.elim
    | cons t ts =>
      have hh : ColPiece d e a t ∧ ColPieces d es t ts b := by
        cases es <;> exact h
      obtain ⟨⟨h1, h2, h2', h2'', h3, h4, h5⟩, h6⟩ := hh
      have ht := hts t (List.mem_cons_self)
      have hres : ColPiece c e a t ∧ ColPieces c es t ts b :=
        ⟨⟨h1, by rw [h2, hdeg], h2', by omega, h3, h4, fun x hx1 hx2 col => by
          rw [h5 x hx1 hx2 col, hv x (le_trans ha hx1) (le_trans hx2 (le_trans ht.2 hb)) col]⟩,
        ih ts t b ht.1 hb (fun t' ht' => hts t' (List.mem_cons_of_mem _ ht')) h6⟩
      cases es <;> exact hres

/-- Splitting at increasing parameters: one piece per interval; if the parameters include every inner knot, every piece has
`degree + 1` control points. -/
theorem split_multiple_columns (fuel : Nat) (eps : K → K) (heps : ∀ y, 0 ≤ eps y) (tol : K) (htol : 0 ≤ tol)
    (init junk : Nat → Nat → K) : ∀ (ts : List K) (c : Curve K), Valid c → c.periodic = false → NoJump c → 1 ≤ c.degree →
    c.m ≤ fuel →
    (∀ t ∈ ts, tol < t - c.U c.degree ∧ tol < c.U c.n - t) → ts.Pairwise (fun s t => tol < t - s) →
    (∀ t ∈ ts, (∀ i, i < c.m → |t - c.U i| ≤ eps (c.U i) → c.U i = t) ∧ ∀ s ∈ ts, |t - s| ≤ eps s → s = t) →
    ∃ ds, splitMultiple fuel eps tol init junk c ts = some (some ds) ∧ ColPieces c ds (c.U c.degree) ts (c.U c.n) ∧
      (c.U c.degree < c.U (c.degree + 1) → (∀ k, c.degree < k → k < c.n → c.U k ∈ ts) → ∀ d ∈ ds, d.n = c.degree + 1) ∧
      (c.U 0 = c.U c.degree → c.U (c.m - 1) = c.U c.n → ∀ d ∈ ds, d.U 0 = d.U d.degree ∧ d.U (d.m - 1) = d.U d.n) ∧
      ∀ w, (∀ l, l < c.n → c.P l 3 = w) → ∀ d ∈ ds, ∀ l, l < d.n → d.P l 3 = w := by
  intro ts
  induction ts with
  | nil =>
    intro c hc hper _ _ _ _ _ _
    refine ⟨[c], rfl, ⟨hc, rfl, hper, by omega, rfl, rfl, fun _ _ _ _ => rfl⟩, fun _ hk d hd => ?_, fun q1 q2 d hd => by
      rw [List.mem_singleton] at hd
      subst hd
      exact ⟨q1, q2⟩, fun w hw d hd => by
      rw [List.mem_singleton] at hd
      subst hd
      exact hw⟩
    rw [List.mem_singleton] at hd
    subst hd
    have := hc.npos
    by_contra hcon
    exact absurd (hk (d.degree + 1) (by omega) (by omega)) (List.not_mem_nil)
  | cons t ts ih =>
    intro c hc hper hj hdeg hf hts hpw hsep
    have hk := hc.knots
    have hnp := hc.npos
    obtain ⟨ht1, ht2⟩ := hts t List.mem_cons_self
    have hl : c.U c.degree < t := by linarith
    have hh : t < c.U c.n := by linarith
    have hs0 := (hsep t List.mem_cons_self).1
    have hmult := mult_le_degree c hc hj eps t hl hh hs0
    have hU0 : c.U 0 ≤ c.U c.degree := hc.mono _ _ (by omega) (by omega)
    have hUm : c.U c.n ≤ c.U (c.m - 1) := hc.mono _ _ (by omega) (by omega)
    obtain ⟨c1, c2, h0, v1, v2, d1, d2, p1, p2, e1, e2, e3, e4, hn, f1, f2, hwt, h20, ⟨d, hdm, hdk⟩, hend, hlow, hst⟩ :=
      split_columns c hc hdeg fuel eps heps t tol (by omega) hl hh (by linarith) (by linarith) hs0 hmult init junk
    have hb1 := v1.npos
    have hb2 := v2.npos
    have hk1 := v1.knots
    have hk2 := v2.knots
    have hkn : ∀ k, k < c2.m → c2.U k = t ∨ ∃ j, j < c.m ∧ c2.U k = c.U j := by
      intro k hk'
      by_cases hkd : c.degree < k
      · exact Or.inr ⟨k + d, by omega, hdk k hkd⟩
      · have a1 := v2.mono 0 k (by omega) hk'
        have a2 := v2.mono k c2.degree (by omega) (by omega)
        rw [h20] at a1
        rw [e3] at a2
        exact Or.inl (le_antisymm a2 a1)
    have hj2 : NoJump c2 := by
      intro j hj1 hj2 hj3
      rw [e3] at hj2
      rw [e4] at hj3
      have hjd : c.degree < j := by
        by_contra hcon
        have := v2.mono j c2.degree (by omega) (by omega)
        rw [e3] at this
        exact absurd hj2 (not_lt.mpr this)
      rw [hdk j hjd, hdk (j + c2.degree) (by omega), d2]
      rw [hdk j hjd] at hj2 hj3
      have := hj (j + d) (by omega) (lt_trans hl hj2) hj3
      rw [show j + d + c.degree = j + c.degree + d by omega] at this
      exact this
    have hpw' := List.pairwise_cons.mp hpw
    obtain ⟨ds, hds, hpc, hbz, hcl, hwe⟩ := ih c2 v2 p2 hj2 (by omega) (by omega)
      (fun t' ht' => by
        rw [e3, e4]
        exact ⟨hpw'.1 t' ht', (hts t' (List.mem_cons_of_mem _ ht')).2⟩) hpw'.2
      (fun t' ht' => by
        obtain ⟨q1, q2⟩ := hsep t' (List.mem_cons_of_mem _ ht')
        refine ⟨fun i hi hle => ?_, fun s hs => q2 s (List.mem_cons_of_mem _ hs)⟩
        rcases hkn i hi with h | ⟨j, hj', h⟩
        · rw [h] at hle ⊢
          exact q2 t List.mem_cons_self hle
        · rw [h] at hle ⊢
          exact q1 j hj' hle)
    refine ⟨c1 :: ds, ?_, ?_, fun hstart hin => ?_, fun q1 q2 d' hd' => ?_, fun w hw d' hd' => ?_⟩
    · rw [splitMultiple, h0]
      simp only
      rw [hds]
    · have hpc2 := ColPieces.mono (c := c) (d := c2) d2 (by omega) t f2 ds ts t (c.U c.n) (le_refl _) (le_refl _)
        (fun t' ht' => ⟨by have := hpw'.1 t' ht'; linarith, by
          have := (hts t' (List.mem_cons_of_mem _ ht')).2; linarith⟩) (by rw [e3, e4] at hpc; exact hpc)
      have hp1 : ColPiece c c1 (c.U c.degree) t := ⟨v1, d1, p1, by omega, e1, e2, f1⟩
      cases ds with
      | nil => cases ts <;> exact hpc2.elim
      | cons _ _ => exact ⟨hp1, hpc2⟩
    · intro d' hd'
      rcases List.mem_cons.mp hd' with h | h
      · subst h
        by_contra hcon
        have hq : d'.U (d'.n - 1) = c.U (d'.n - 1) := hlow _ (by omega)
        have hlt : c.U (d'.n - 1) < t := by rw [← hq, ← e2]; exact v1.last
        have hgt : c.U c.degree < c.U (d'.n - 1) :=
          lt_of_lt_of_le hstart (hc.mono _ _ (by omega) (by omega))
        have hnc : d'.n - 1 < c.n := by
          by_contra hc'
          exact absurd hlt (not_lt.mpr (le_trans (le_of_lt hh) (hc.mono c.n (d'.n - 1) (by omega) (by omega))))
        rcases List.mem_cons.mp (hin (d'.n - 1) (by omega) hnc) with h | h
        · rw [h] at hlt; exact absurd hlt (lt_irrefl _)
        · have := hpw'.1 _ h
          linarith
      · rw [← d2]
        refine hbz (by rw [e3]; exact hst) (fun k hk1' hk2' => ?_) d' h
        have hgt : t < c2.U k := lt_of_lt_of_le hst (v2.mono _ _ (by omega) (by omega))
        rw [hdk k (by omega)] at hgt ⊢
        rcases List.mem_cons.mp (hin (k + d) (by omega) (by omega)) with h | h
        · rw [h] at hgt; exact absurd hgt (lt_irrefl _)
        · exact h
    · rcases List.mem_cons.mp hd' with h | h
      · subst h
        exact ⟨by rw [hlow 0 (by omega), q1, e1], by rw [hend, e2]⟩
      · refine hcl (by rw [h20, e3]) ?_ d' h
        rw [hdk (c2.m - 1) (by omega), show c2.m - 1 + d = c.m - 1 by omega, q2, e4]
    · rcases List.mem_cons.mp hd' with h | h
      · rw [h]; exact (hwt w hw).1
      · exact hwe w (hwt w hw).2 d' h

end Verif.Nurbs
