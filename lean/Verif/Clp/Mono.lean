import Verif.Clp.Model

/-!
# More fuel gives the same answer
-/

set_option linter.unusedSectionVars false
namespace Verif.Clp
open Verif.Poly
variable {K : Type} [Field K] [LinearOrder K]

theorem nextPlain_mono {h : Heap K} {r : Nat} : ∀ {f : Nat} {c : Nat}, nextPlain h f c = some r → ∀ {f'}, f ≤ f' → nextPlain h f' c = some r
  | 0, _, H, _, _ => by simp [nextPlain] at H
  | f + 1, c, H, f', hf => by
    obtain ⟨f', rfl⟩ : ∃ k, f' = k + 1 := ⟨f' - 1, by omega⟩
    rw [nextPlain] at H ⊢
    split at H
    · rename_i hc
      rw [if_pos hc]; exact nextPlain_mono H (by omega)
    · rename_i hc
      rw [if_neg hc]; exact H

theorem seek_mono {h : Heap K} {a : K} {e r : Nat} : ∀ {f : Nat} {c : Nat}, seek h a e f c = some r → ∀ {f'}, f ≤ f' → seek h a e f' c = some r
  | 0, _, H, _, _ => by simp [seek] at H
  | f + 1, c, H, f', hf => by
    obtain ⟨f', rfl⟩ : ∃ k, f' = k + 1 := ⟨f' - 1, by omega⟩
    rw [seek] at H ⊢
    split at H
    · rename_i hc
      rw [if_pos hc]; exact seek_mono H (by omega)
    · rename_i hc
      rw [if_neg hc]; exact H

theorem insertV_mono {f f' : Nat} {h : Heap K} {v s e : Nat} {r : Heap K} (H : insertV f h v s e = some r) (hf : f ≤ f') :
    insertV f' h v s e = some r := by
  rw [insertV] at H ⊢
  obtain ⟨c, h1, h2⟩ := Option.map_eq_some_iff.mp H
  rw [seek_mono h1 hf, Option.map_some, h2]

theorem cross_mono {f f' : Nat} {st : St K} {s c : Nat} {r : St K} (H : cross f st s c = some r) (hf : f ≤ f') : cross f' st s c = some r := by
  rw [cross] at H ⊢
  split at H
  · rename_i s2 c2 h1 h2
    rw [nextPlain_mono h1 hf, nextPlain_mono h2 hf]
    dsimp only
    split at H
    · exact H
    · rename_i i us uc hx
      dsimp only at H ⊢
      split at H
      · cases H
      · rename_i e h3
        rw [nextPlain_mono h3 hf]
        dsimp only
        split at H
        · cases H
        · rename_i h1' h4
          rw [insertV_mono h4 hf]
          dsimp only
          split at H
          · cases H
          · rename_i g h5
            rw [nextPlain_mono h5 hf]
            dsimp only
            obtain ⟨h2', h6, h7⟩ := Option.map_eq_some_iff.mp H
            rw [insertV_mono h6 hf, Option.map_some, h7]
  · cases H

theorem loopC_mono {fuel fuel' : Nat} (hfu : fuel ≤ fuel') {s hc : Nat} {r : St K} : ∀ {f : Nat} {st : St K} {c : Nat},
    loopC fuel s hc f st c = some r → ∀ {f'}, f ≤ f' → loopC fuel' s hc f' st c = some r
  | 0, _, _, H, _, _ => by simp [loopC] at H
  | f + 1, st, c, H, f', hf => by
    obtain ⟨f', rfl⟩ : ∃ k, f' = k + 1 := ⟨f' - 1, by omega⟩
    rw [loopC] at H ⊢
    split at H
    · cases H
    · rename_i st' h1
      have h1' : (if (st.heap c).inter then some st else cross fuel' st s c) = some st' := by
        split at h1
        · rename_i hi; rw [if_pos hi]; exact h1
        · rename_i hi; rw [if_neg hi]; exact cross_mono h1 hfu
      rw [h1']
      dsimp only
      split at H
      · rename_i hn; rw [if_pos hn]; exact H
      · rename_i hn; rw [if_neg hn]; exact loopC_mono hfu H (by omega)

theorem loopS_mono {fuel fuel' : Nat} (hfu : fuel ≤ fuel') {hs hc : Nat} {r : St K} : ∀ {f : Nat} {st : St K} {c : Nat},
    loopS fuel hs hc f st c = some r → ∀ {f'}, f ≤ f' → loopS fuel' hs hc f' st c = some r
  | 0, _, _, H, _, _ => by simp [loopS] at H
  | f + 1, st, c, H, f', hf => by
    obtain ⟨f', rfl⟩ : ∃ k, f' = k + 1 := ⟨f' - 1, by omega⟩
    rw [loopS] at H ⊢
    split at H
    · cases H
    · rename_i st' h1
      have h1' : (if (st.heap c).inter then some st else loopC fuel' c hc fuel' st hc) = some st' := by
        split at h1
        · rename_i hi; rw [if_pos hi]; exact h1
        · rename_i hi; rw [if_neg hi]; exact loopC_mono hfu h1 hfu
      rw [h1']
      dsimp only
      split at H
      · rename_i hn; rw [if_pos hn]; exact H
      · rename_i hn; rw [if_neg hn]; exact loopS_mono hfu H (by omega)

theorem windLoop_mono {fuel fuel' : Nat} (hfu : fuel ≤ fuel') {h : Heap K} {v hd r : Nat} : ∀ {f q n : Nat},
    windLoop fuel h v hd f q n = some r → ∀ {f'}, f ≤ f' → windLoop fuel' h v hd f' q n = some r
  | 0, _, _, H, _, _ => by simp [windLoop] at H
  | f + 1, q, n, H, f', hf => by
    obtain ⟨f', rfl⟩ : ∃ k, f' = k + 1 := ⟨f' - 1, by omega⟩
    rw [windLoop] at H ⊢
    split at H
    · cases H
    · rename_i k h1
      have h1' : (if (h q).inter then some n else (nextPlain h fuel' (h q).next).map fun q2 =>
          if (intersect (h v).pos (1000000, (h v).pos.2) (h q).pos (h q2).pos).isSome then n + 1 else n) = some k := by
        split at h1
        · rename_i hi; rw [if_pos hi]; exact h1
        · rename_i hi; rw [if_neg hi]
          obtain ⟨q2, h2, h3⟩ := Option.map_eq_some_iff.mp h1
          rw [nextPlain_mono h2 hfu, Option.map_some, h3]
      rw [h1']
      dsimp only
      split at H
      · rename_i hn; rw [if_pos hn]; exact H
      · rename_i hn; rw [if_neg hn]; exact windLoop_mono hfu H (by omega)

theorem isInside_mono {f f' : Nat} {h : Heap K} {v hd : Nat} {b : Bool} (H : isInside f h v hd = some b) (hf : f ≤ f') :
    isInside f' h v hd = some b := by
  rw [isInside] at H ⊢
  obtain ⟨k, h1, h2⟩ := Option.map_eq_some_iff.mp H
  rw [windLoop_mono hf h1 hf, Option.map_some, h2]

theorem entryLoop_mono {hd : Nat} {r : Heap K} : ∀ {f : Nat} {h : Heap K} {s : Nat} {e : Bool}, entryLoop hd f h s e = some r → ∀ {f'}, f ≤ f' →
    entryLoop hd f' h s e = some r
  | 0, _, _, _, H, _, _ => by simp [entryLoop] at H
  | f + 1, h, s, e, H, f', hf => by
    obtain ⟨f', rfl⟩ : ∃ k, f' = k + 1 := ⟨f' - 1, by omega⟩
    rw [entryLoop] at H ⊢
    generalize (if (h s).inter then setEntry h s e else h) = h' at H ⊢
    split at H
    · rename_i hn; rw [if_pos hn]; exact H
    · rename_i hn; rw [if_neg hn]; exact entryLoop_mono H (by omega)

theorem phase2_mono {f f' : Nat} {h : Heap K} {hs hc : Nat} {a b : Bool} {r : Heap K} (H : phase2 f h hs hc a b = some r) (hf : f ≤ f') :
    phase2 f' h hs hc a b = some r := by
  rw [phase2] at H ⊢
  split at H
  · cases H
  · rename_i b1 h1
    rw [isInside_mono h1 hf]
    dsimp only
    split at H
    · cases H
    · rename_i g h2
      rw [entryLoop_mono h2 hf]
      dsimp only
      split at H
      · cases H
      · rename_i b2 h3
        rw [isInside_mono h3 hf]
        exact entryLoop_mono H hf

theorem firstOpen_mono {h : Heap K} {hd : Nat} {r : Option Nat} : ∀ {f v : Nat}, firstOpen h hd f v = some r → ∀ {f'}, f ≤ f' →
    firstOpen h hd f' v = some r
  | 0, _, H, _, _ => by simp [firstOpen] at H
  | f + 1, v, H, f', hf => by
    obtain ⟨f', rfl⟩ : ∃ k, f' = k + 1 := ⟨f' - 1, by omega⟩
    rw [firstOpen] at H ⊢
    split at H
    · rename_i hn; rw [if_pos hn]; exact H
    · rename_i hn; rw [if_neg hn]
      split at H
      · rename_i hn; rw [if_pos hn]; exact H
      · rename_i hn; rw [if_neg hn]; exact firstOpen_mono H (by omega)

theorem setChecked_mono {r : Heap K} : ∀ {f : Nat} {h : Heap K} {v : Nat}, setChecked f h v = some r → ∀ {f'}, f ≤ f' →
    setChecked f' h v = some r
  | 0, _, _, H, _, _ => by simp [setChecked] at H
  | f + 1, h, v, H, f', hf => by
    obtain ⟨f', rfl⟩ : ∃ k, f' = k + 1 := ⟨f' - 1, by omega⟩
    rw [setChecked] at H ⊢
    split at H
    · exact H
    · split at H
      · rename_i hn; rw [if_pos hn]; exact setChecked_mono H (by omega)
      · rename_i hn; rw [if_neg hn]; exact H

theorem walk_mono {h : Heap K} {fwd : Bool} {r : Nat × List (Pt K)} : ∀ {f c : Nat} {acc : List (Pt K)}, walk h fwd f c acc = some r → ∀ {f'}, f ≤ f' →
    walk h fwd f' c acc = some r
  | 0, _, _, H, _, _ => by simp [walk] at H
  | f + 1, c, acc, H, f', hf => by
    obtain ⟨f', rfl⟩ : ∃ k, f' = k + 1 := ⟨f' - 1, by omega⟩
    rw [walk] at H ⊢
    generalize (if fwd then (h c).next else (h c).prev) = c' at H ⊢
    split at H
    · rename_i hn; rw [if_pos hn]; exact H
    · rename_i hn; rw [if_neg hn]; exact walk_mono H (by omega)

theorem trace_mono {fuel fuel' : Nat} (hfu : fuel ≤ fuel') {r : Heap K × List (Pt K)} : ∀ {f : Nat} {h : Heap K} {c : Nat} {acc : List (Pt K)},
    trace fuel f h c acc = some r → ∀ {f'}, f ≤ f' → trace fuel' f' h c acc = some r
  | 0, _, _, _, H, _, _ => by simp [trace] at H
  | f + 1, h, c, acc, H, f', hf => by
    obtain ⟨f', rfl⟩ : ∃ k, f' = k + 1 := ⟨f' - 1, by omega⟩
    rw [trace] at H ⊢
    split at H
    · cases H
    · rename_i h1 e1
      rw [setChecked_mono e1 hfu]
      dsimp only
      split at H
      · cases H
      · rename_i v acc' e2
        rw [walk_mono e2 hfu]
        dsimp only
        split at H
        · cases H
        · rename_i w e3
          split at H
          · rename_i hn; rw [if_pos hn]; exact H
          · rename_i hn; rw [if_neg hn]; exact trace_mono hfu H (by omega)

theorem pieces_mono {fuel fuel' : Nat} (hfu : fuel ≤ fuel') {hs : Nat} {r : Heap K × List (List (Pt K))} : ∀ {f : Nat} {h : Heap K}
    {acc : List (List (Pt K))}, pieces fuel hs f h acc = some r → ∀ {f'}, f ≤ f' → pieces fuel' hs f' h acc = some r
  | 0, _, _, H, _, _ => by simp [pieces] at H
  | f + 1, h, acc, H, f', hf => by
    obtain ⟨f', rfl⟩ : ∃ k, f' = k + 1 := ⟨f' - 1, by omega⟩
    rw [pieces] at H ⊢
    split at H
    · cases H
    · rename_i e1; rw [firstOpen_mono e1 hfu]; exact H
    · rename_i c e1
      rw [firstOpen_mono e1 hfu]
      dsimp only
      split at H
      · cases H
      · rename_i h' l e2
        rw [trace_mono hfu e2 hfu]
        exact pieces_mono hfu H (by omega)

theorem points_mono {h : Heap K} {hd : Nat} : ∀ {f v : Nat} {r : List (Pt K)}, points h hd f v = some r → ∀ {f'}, f ≤ f' →
    points h hd f' v = some r
  | 0, _, _, H, _, _ => by simp [points] at H
  | f + 1, v, r, H, f', hf => by
    obtain ⟨f', rfl⟩ : ∃ k, f' = k + 1 := ⟨f' - 1, by omega⟩
    rw [points] at H ⊢
    split at H
    · rename_i hn; rw [if_pos hn]; exact H
    · rename_i hn; rw [if_neg hn]
      obtain ⟨l, h1, h2⟩ := Option.map_eq_some_iff.mp H
      rw [points_mono h1 (by omega : f ≤ f'), Option.map_some, h2]

theorem clipSt_mono {f f' : Nat} {st : St K} {hs hc : Nat} {a b : Bool} {r : St K × List (List (Pt K))}
    (H : clipSt f st hs hc a b = some r) (hf : f ≤ f') : clipSt f' st hs hc a b = some r := by
  rw [clipSt] at H ⊢
  split at H
  · cases H
  · rename_i st1 e1
    have e1' : phase1 f' st hs hc = some st1 := by rw [phase1] at e1 ⊢; exact loopS_mono hf e1 hf
    rw [e1']
    dsimp only
    split at H
    · cases H
    · rename_i h2 e2
      rw [phase2_mono e2 hf]
      dsimp only
      split at H
      · cases H
      · rename_i h3 e3
        rw [pieces_mono hf e3 hf]
        dsimp only
        obtain ⟨l, h1, h2⟩ := Option.map_eq_some_iff.mp H
        rw [points_mono h1 hf, Option.map_some, h2]
      · rename_i h3 l hne e3
        rw [pieces_mono hf e3 hf]
        cases l with
        | nil => exact absurd rfl hne
        | cons a l => exact H

theorem op_mono {o : Op} {f f' : Nat} {S C : List (Pt K)} {r : List (List (Pt K))} (H : op o f S C = some r) (hf : f ≤ f') :
    op o f' S C = some r := by
  rw [op] at H ⊢
  split at H
  · cases H
  · rename_i st hs hc e
    obtain ⟨x, h1, h2⟩ := Option.map_eq_some_iff.mp H
    rw [clipSt_mono h1 hf, Option.map_some, h2]

end Verif.Clp
