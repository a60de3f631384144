import Verif.Nst.Props

/-! # C412: the interval of a surface; C413: equality of surfaces; C414: views of control points -/

set_option linter.unusedSectionVars false

namespace Verif.Nst

section
variable {K : Type} [Field K] [LinearOrder K]

/-- The interval of a surface is given by the first and last knots. -/
def SIvOk (s : SSt K) (o : Nat) : Prop :=
  (s.obj o).iu = ((s.heap (s.obj o).ku).getD 0 0,
    (s.heap (s.obj o).ku).getD ((s.heap (s.obj o).ku).length - 1) 0) ∧
  (s.obj o).iv = ((s.heap (s.obj o).kv).getD 0 0,
    (s.heap (s.obj o).kv).getD ((s.heap (s.obj o).kv).length - 1) 0)

/-- The call speaks of surfaces and arrays that exist. -/
def SValid (s : SSt K) : SOp K → Prop
  | .array _ => True
  | .write l _ => l < s.nk
  | .create _ _ lu lv => (∀ i, lu = some i → i < s.nk) ∧ (∀ i, lv = some i → i < s.nk)
  | .setU o l => o < s.no ∧ l < s.nk
  | .setV o l => o < s.no ∧ l < s.nk
  | .setDegree o _ => o < s.no
  | .insertU o _ _ => o < s.no
  | .insertV o _ _ => o < s.no
  | .normalize o => o < s.no
  | .copy o => o < s.no

/-- Nothing writes into the knots of another surface, and the degree is not assigned. -/
def SCalm (s : SSt K) : SOp K → Prop
  | .write l _ => ∀ o < s.no, (s.obj o).ku ≠ l ∧ (s.obj o).kv ≠ l
  | .normalize o => ∀ o' < s.no, o' ≠ o → (s.obj o').ku ≠ (s.obj o).ku ∧ (s.obj o').ku ≠ (s.obj o).kv ∧
      (s.obj o').kv ≠ (s.obj o).ku ∧ (s.obj o').kv ≠ (s.obj o).kv
  | .setDegree _ _ => False
  | _ => True

def SAll (span : Nat → Nat → List K → K → Nat) (ok : SSt K → SOp K → Prop) : SSt K → List (SOp K) → Prop
  | _, [] => True
  | s, op :: ops => ok s op ∧ SAll span ok (sstep span s op) ops

def SRefs (s : SSt K) : Prop := ∀ o < s.no, (s.obj o).ku < s.nk ∧ (s.obj o).kv < s.nk

/-- A surface that keeps its arrays keeps being in step when new arrays are made. -/
theorem sivOk_of {s s' : SSt K} {o : Nat} (ho : s'.obj o = s.obj o) (hu : s'.heap (s.obj o).ku = s.heap (s.obj o).ku)
    (hv : s'.heap (s.obj o).kv = s.heap (s.obj o).kv) (h : SIvOk s o) : SIvOk s' o := by
  unfold SIvOk at h ⊢
  rw [ho, hu, hv]
  exact h

theorem sivOk_up {s' : SSt K} {o : Nat} {x : Srf K} (ho : s'.obj o = upInterval s'.heap x) : SIvOk s' o := by
  unfold SIvOk
  rw [ho]
  exact ⟨rfl, rfl⟩

theorem orDefault_spec (s : SSt K) (l : Option Nat) (n d : Nat) (hl : ∀ i, l = some i → i < s.nk) :
    (orDefault s l n d).1.obj = s.obj ∧ (orDefault s l n d).1.no = s.no ∧ s.nk ≤ (orDefault s l n d).1.nk ∧
    (orDefault s l n d).2 < (orDefault s l n d).1.nk ∧
    (∀ i < s.nk, (orDefault s l n d).1.heap i = s.heap i) := by
  cases l with
  | some l => exact ⟨rfl, rfl, le_refl _, hl l rfl, fun _ _ => rfl⟩
  | none =>
    refine ⟨rfl, rfl, Nat.le_succ _, Nat.lt_succ_self _, fun i hi => ?_⟩
    have : ¬ i = s.nk := by omega
    simp [orDefault, SSt.alloc, upd, this]

theorem sstep_ok (span : Nat → Nat → List K → K → Nat) (s : SSt K) (op : SOp K) (v : SValid s op)
    (cm : SCalm s op) (r : SRefs s) (h : ∀ o < s.no, SIvOk s o) :
    SRefs (sstep span s op) ∧ ∀ o < (sstep span s op).no, SIvOk (sstep span s op) o := by
  cases op with
  | array k =>
    refine ⟨fun o ho => ?_, fun o ho => ?_⟩
    · have := r o ho
      exact ⟨Nat.lt_succ_of_lt this.1, Nat.lt_succ_of_lt this.2⟩
    · have hk := r o ho
      have e1 : ¬ (s.obj o).ku = s.nk := by omega
      have e2 : ¬ (s.obj o).kv = s.nk := by omega
      exact sivOk_of (s := s) rfl (by simp [sstep, SSt.alloc, upd, e1]) (by simp [sstep, SSt.alloc, upd, e2]) (h o ho)
  | write l k =>
    refine ⟨r, fun o ho => ?_⟩
    have := cm o ho
    exact sivOk_of (s := s) rfl (by simp [sstep, upd, this.1]) (by simp [sstep, upd, this.2]) (h o ho)
  | create size degree lu lv =>
    obtain ⟨a1, a2, a3, a4, a5⟩ := orDefault_spec s lu size.1 degree.1 v.1
    obtain ⟨b1, b2, b3, b4, b5⟩ := orDefault_spec (orDefault s lu size.1 degree.1).1 lv size.2 degree.2
      (fun i hi => lt_of_lt_of_le (v.2 i hi) a3)
    have hobj : ∀ i, i ≠ s.no → (sstep span s (.create size degree lu lv)).obj i = s.obj i := by
      intro i hi
      simp only [sstep, upd, hi, if_false, b1, a1]
    have hnew : (sstep span s (.create size degree lu lv)).obj s.no =
        upInterval (sstep span s (.create size degree lu lv)).heap
          ⟨size, degree, (orDefault s lu size.1 degree.1).2,
            (orDefault (orDefault s lu size.1 degree.1).1 lv size.2 degree.2).2, (0, 0), (0, 0)⟩ := by
      simp [sstep, upd]
    have hheap : ∀ i < s.nk, (sstep span s (.create size degree lu lv)).heap i = s.heap i := by
      intro i hi
      show (orDefault (orDefault s lu size.1 degree.1).1 lv size.2 degree.2).1.heap i = _
      rw [b5 i (lt_of_lt_of_le hi a3), a5 i hi]
    have hnk : (sstep span s (.create size degree lu lv)).nk =
      (orDefault (orDefault s lu size.1 degree.1).1 lv size.2 degree.2).1.nk := rfl
    refine ⟨fun o ho => ?_, fun o ho => ?_⟩
    · have ho : o < s.no + 1 := ho
      by_cases b : o = s.no
      · subst b
        rw [hnew, hnk]
        exact ⟨lt_of_lt_of_le a4 b3, b4⟩
      · rw [hobj o b, hnk]
        have := r o (by omega)
        exact ⟨by omega, by omega⟩
    · have ho : o < s.no + 1 := ho
      by_cases b : o = s.no
      · subst b
        exact sivOk_up hnew
      · have := r o (by omega)
        exact sivOk_of (hobj o b) (hheap _ this.1) (hheap _ this.2) (h o (by omega))
  | setU o l =>
    refine ⟨fun i hi => ?_, fun i hi => ?_⟩
    · have hi : i < s.no := hi
      by_cases b : i = o
      · subst b
        simp only [sstep, SSt.put, upd, if_true, upInterval]
        exact ⟨v.2, (r i hi).2⟩
      · simp only [sstep, SSt.put, upd, b, if_false]
        exact r i hi
    · by_cases b : i = o
      · subst b
        exact sivOk_up (x := { s.obj i with ku := l }) (by simp [sstep, SSt.put, upd])
      · exact sivOk_of (s := s) (by simp [sstep, SSt.put, upd, b]) rfl rfl (h i hi)
  | setV o l =>
    refine ⟨fun i hi => ?_, fun i hi => ?_⟩
    · have hi : i < s.no := hi
      by_cases b : i = o
      · subst b
        simp only [sstep, SSt.put, upd, if_true, upInterval]
        exact ⟨(r i hi).1, v.2⟩
      · simp only [sstep, SSt.put, upd, b, if_false]
        exact r i hi
    · by_cases b : i = o
      · subst b
        exact sivOk_up (x := { s.obj i with kv := l }) (by simp [sstep, SSt.put, upd])
      · exact sivOk_of (s := s) (by simp [sstep, SSt.put, upd, b]) rfl rfl (h i hi)
  | setDegree o d => exact cm.elim
  | insertU o t c =>
    refine ⟨fun i hi => ?_, fun i hi => ?_⟩
    · have hi : i < s.no := hi
      have hr := r i hi
      by_cases b : i = o
      · subst b
        simp only [sstep, SSt.put, SSt.alloc, upd, if_true, upInterval]
        exact ⟨by omega, by omega⟩
      · simp only [sstep, SSt.put, SSt.alloc, upd, b, if_false]
        exact ⟨by omega, by omega⟩
    · have hi : i < s.no := hi
      have hr := r i hi
      by_cases b : i = o
      · subst b
        exact sivOk_up (x := { s.obj i with size := ((s.obj i).size.1 + c, (s.obj i).size.2), ku := s.nk })
          (by simp [sstep, SSt.put, SSt.alloc, upd])
      · have e1 : ¬ (s.obj i).ku = s.nk := by omega
        have e2 : ¬ (s.obj i).kv = s.nk := by omega
        exact sivOk_of (by simp [sstep, SSt.put, SSt.alloc, upd, b]) (by simp [sstep, SSt.put, SSt.alloc, upd, e1])
          (by simp [sstep, SSt.put, SSt.alloc, upd, e2]) (h i hi)
  | insertV o t c =>
    refine ⟨fun i hi => ?_, fun i hi => ?_⟩
    · have hi : i < s.no := hi
      have hr := r i hi
      by_cases b : i = o
      · subst b
        simp only [sstep, SSt.put, SSt.alloc, upd, if_true, upInterval]
        exact ⟨by omega, by omega⟩
      · simp only [sstep, SSt.put, SSt.alloc, upd, b, if_false]
        exact ⟨by omega, by omega⟩
    · have hi : i < s.no := hi
      have hr := r i hi
      by_cases b : i = o
      · subst b
        exact sivOk_up (x := { s.obj i with size := ((s.obj i).size.1, (s.obj i).size.2 + c), kv := s.nk })
          (by simp [sstep, SSt.put, SSt.alloc, upd])
      · have e1 : ¬ (s.obj i).ku = s.nk := by omega
        have e2 : ¬ (s.obj i).kv = s.nk := by omega
        exact sivOk_of (by simp [sstep, SSt.put, SSt.alloc, upd, b]) (by simp [sstep, SSt.put, SSt.alloc, upd, e1])
          (by simp [sstep, SSt.put, SSt.alloc, upd, e2]) (h i hi)
  | normalize o =>
    refine ⟨fun i hi => ?_, fun i hi => ?_⟩
    · have hi : i < s.no := hi
      have hr := r i hi
      by_cases b : i = o
      · subst b
        simp only [sstep, upd, if_true, upInterval]
        exact hr
      · simp only [sstep, upd, b, if_false]
        exact hr
    · by_cases b : i = o
      · subst b
        exact sivOk_up (x := s.obj i) (by simp [sstep, upd])
      · have := cm i hi b
        exact sivOk_of (by simp [sstep, upd, b]) (by simp [sstep, upd, this.1, this.2.1])
          (by simp [sstep, upd, this.2.2.1, this.2.2.2]) (h i hi)
  | copy o =>
    have v : o < s.no := v
    refine ⟨fun i hi => ?_, fun i hi => ?_⟩
    · have hi : i < s.no + 1 := hi
      by_cases b : i = s.no
      · subst b
        simp only [sstep, SSt.alloc, upd, if_true]
        exact ⟨by omega, by omega⟩
      · have hr := r i (by omega)
        simp only [sstep, SSt.alloc, upd, b, if_false]
        exact ⟨by omega, by omega⟩
    · have hi : i < s.no + 1 := hi
      by_cases b : i = s.no
      · subst b
        have hr := r o v
        have := h o v
        unfold SIvOk at this ⊢
        have e1 : ¬ s.nk = s.nk + 1 := by omega
        simp only [sstep, SSt.alloc, upd, if_true, e1, if_false]
        exact this
      · have hr := r i (by omega)
        have e1 : ¬ (s.obj i).ku = s.nk := by omega
        have e2 : ¬ (s.obj i).kv = s.nk := by omega
        have e3 : ¬ (s.obj i).ku = s.nk + 1 := by omega
        have e4 : ¬ (s.obj i).kv = s.nk + 1 := by omega
        exact sivOk_of (by simp [sstep, SSt.alloc, upd, b]) (by simp [sstep, SSt.alloc, upd, e1, e3])
          (by simp [sstep, SSt.alloc, upd, e2, e4]) (h i (by omega))

/-- After all histories in which no degree is assigned and nothing writes into the knots of another surface the interval of
every surface is that of its knots. -/
theorem C412_interval_partial (span : Nat → Nat → List K → K → Nat) (ops : List (SOp K))
    (h : SAll span (fun s op => SValid s op ∧ SCalm s op) sempty ops) (o : Nat) (ho : o < (srun span sempty ops).no) :
    SIvOk (srun span sempty ops) o := by
  have key : ∀ (ops : List (SOp K)) (s : SSt K), SAll span (fun s op => SValid s op ∧ SCalm s op) s ops → SRefs s →
      (∀ o < s.no, SIvOk s o) → ∀ o < (srun span s ops).no, SIvOk (srun span s ops) o := by
    intro ops
    induction ops with
    | nil => intro s _ _ hs; exact hs
    | cons op ops ih =>
      intro s ha r hs
      have := sstep_ok span s op ha.1.1 ha.1.2 r hs
      exact ih _ ha.2 this.1 this.2
  exact key ops sempty h (fun i hi => absurd hi (Nat.not_lt_zero _)) (fun i hi => absurd hi (Nat.not_lt_zero _)) o ho

theorem ends_openKnots (n d : Nat) (hd : d < n) : ends (openKnots n d : List K) = (0, ((n - d : Nat) : K)) := by
  unfold ends openKnots
  have h1 := getD_range (K := K) (α := K) (Nurbs.generateKnots n d) (n + d + 1) 0 (by omega)
  have h2 := getD_range (K := K) (α := K) (Nurbs.generateKnots n d) (n + d + 1) (n + d) (by omega)
  simp only [List.length_map, List.length_range, Nat.add_sub_cancel]
  rw [h1, h2]
  have e1 : ¬ n + d < d + 1 := by omega
  have e2 : ¬ n + d < n := by omega
  simp [Nurbs.generateKnots, e1, e2]

/-- Assigning a degree makes new knots from 0 to `n - d` and leaves the interval: for every surface that was in step, unless
its knots had these ends before, `interval()` is not the domain of the surface afterwards. -/
theorem C412_degree_refuted (span : Nat → Nat → List K → K → Nat) (s : SSt K) (o : Nat) (d : Nat × Nat)
    (hd : d.1 < (s.obj o).size.1)
    (hne : (s.obj o).iu ≠ (0, (((s.obj o).size.1 - d.1 : Nat) : K))) :
    let s' := sstep span s (.setDegree o d)
    ends (s'.heap (s'.obj o).ku) = (0, (((s.obj o).size.1 - d.1 : Nat) : K)) ∧ (s'.obj o).iu = (s.obj o).iu ∧
      ¬ SIvOk s' o := by
  have h1 : ends ((sstep span s (.setDegree o d)).heap ((sstep span s (.setDegree o d)).obj o).ku) =
      (0, (((s.obj o).size.1 - d.1 : Nat) : K)) := by
    rw [← ends_openKnots _ _ hd]
    simp [sstep, SSt.put, SSt.alloc, upd]
  have h2 : ((sstep span s (.setDegree o d)).obj o).iu = (s.obj o).iu := by simp [sstep, SSt.put, SSt.alloc, upd]
  refine ⟨h1, h2, fun h3 => hne ?_⟩
  rw [← h2, ← h1]
  exact h3.1

/-- A surface with default knots: after any change of the degree (in a field of characteristic zero) the interval is
wrong. -/
theorem C412_default_refuted [CharZero K] (span : Nat → Nat → List K → K → Nat) (size degree d : Nat × Nat)
    (h0 : degree.1 < size.1) (hd : d.1 < size.1) (hne : d.1 ≠ degree.1) :
    ¬ SIvOk (srun span sempty [.create size degree none none, .setDegree 0 d]) 0 := by
  have h := C412_degree_refuted (K := K) span (sstep span sempty (.create size degree none none)) 0 d
  have e1 : ((sstep span (sempty (K := K)) (.create size degree none none)).obj 0).size = size := by
    simp [sstep, orDefault, SSt.alloc, upd, upInterval, sempty]
  have e2 : ((sstep span (sempty (K := K)) (.create size degree none none)).obj 0).iu = (0, ((size.1 - degree.1 : Nat) : K)) := by
    rw [← ends_openKnots _ _ h0]
    simp [sstep, orDefault, SSt.alloc, upd, upInterval, sempty]
  rw [e1, e2] at h
  refine (h hd ?_).2.2
  intro h3
  have := (Prod.mk.injEq _ _ _ _).mp h3
  have h4 := Nat.cast_injective this.2
  omega
end

/-- A history for `C412_interval_partial`; knots shared by both directions are allowed. -/
def sOps : List (SOp ℚ) :=
  [.array [0, 0, 1, 3, 3], .create (3, 3) (1, 1) (some 0) (some 0), .insertU 0 2 1, .create (4, 3) (2, 1) none none, .copy 0,
    .normalize 2]

def exSpan : Nat → Nat → List ℚ → ℚ → Nat := fun n _ _ _ => n - 1

def sst (n : Nat) : SSt ℚ := srun exSpan sempty (sOps.take n)

example : SAll exSpan (fun s op => SValid s op ∧ SCalm s op) sempty sOps := by
  refine ⟨⟨trivial, trivial⟩, ⟨⟨?_, ?_⟩, trivial⟩, ⟨?_, trivial⟩, ⟨⟨?_, ?_⟩, trivial⟩, ⟨?_, trivial⟩, ⟨?_, ?_⟩, trivial⟩
  · intro i h; cases h; decide
  · intro i h; cases h; decide
  · show 0 < (sst 2).no; decide +kernel
  · intro i h; cases h
  · intro i h; cases h
  · show 0 < (sst 4).no; decide +kernel
  · show 2 < (sst 5).no; decide +kernel
  · show ∀ o' < (sst 5).no, o' ≠ 2 → ((sst 5).obj o').ku ≠ ((sst 5).obj 2).ku ∧ ((sst 5).obj o').ku ≠ ((sst 5).obj 2).kv ∧
      ((sst 5).obj o').kv ≠ ((sst 5).obj 2).ku ∧ ((sst 5).obj o').kv ≠ ((sst 5).obj 2).kv
    decide +kernel

example : ((sst 6).obj 0).iu = (0, 3) ∧ ((sst 6).obj 1).iu = (0, 2) ∧ ((sst 6).obj 2).iu = (0, 1) ∧ ((sst 6).obj 2).iv = (0, 1) := by
  decide +kernel

/-- Hypotheses of `C412_degree_refuted`: the surface of the history with degree 2 instead of 1. -/
example : ((sst 2).obj 0).iu ≠ (0, ((((sst 2).obj 0).size.1 - 2 : Nat) : ℚ)) ∧ 2 < ((sst 2).obj 0).size.1 := by decide +kernel

/-! ## Equality of surfaces -/

/-- `hash(surface)` and `surface == surface` raise an `AttributeError` for every surface, also `s == s`, since surfaces
have no attribute `_control_points`. -/
theorem C413_hash_refuted (h1 h2 : Int) :
    surfaceHash h1 = .error "_control_points" ∧ surfaceEq h1 h2 = .error "_control_points" := by
  constructor <;> rfl

/-! ## Views of control points -/

/-- All views that were handed out point to allocated memory. -/
def Safe (m : Mem) : Prop := ∀ b ∈ m.views, b ∈ m.live

/-- Surfaces have different blocks, which are allocated, and all numbers are below `next`. -/
structure MInv (m : Mem) : Prop where
  live : ∀ o b, m.surf o = some b → b ∈ m.live
  lt : ∀ b ∈ m.live, b < m.next
  vlt : ∀ b ∈ m.views, b < m.next

theorem mstep_inv (m : Mem) (op : MOp) (hm : ∀ o b, m.surf o = some b → ∀ o', m.surf o' = some b → o' = o)
    (h : MInv m) : MInv (mstep m op) ∧
      ∀ o b, (mstep m op).surf o = some b → ∀ o', (mstep m op).surf o' = some b → o' = o := by
  obtain ⟨h1, h2, h3⟩ := h
  cases op with
  | create =>
    refine ⟨⟨fun o b hb => ?_, fun b hb => ?_, fun b hb => ?_⟩, fun o b hb o' hb' => ?_⟩
    · simp only [mstep, upd] at hb ⊢
      split_ifs at hb with e
      · cases hb; exact List.mem_cons_self
      · exact List.mem_cons_of_mem _ (h1 o b hb)
    · simp only [mstep, List.mem_cons] at hb ⊢
      rcases hb with rfl | hb
      · omega
      · have := h2 b hb; omega
    · have := h3 b hb; simp only [mstep]; omega
    · simp only [mstep, upd] at hb hb'
      split_ifs at hb hb' with e e' e'
      · omega
      · cases hb; have := h2 _ (h1 o' _ hb'); omega
      · cases hb'; have := h2 _ (h1 o _ hb); omega
      · exact hm o b hb o' hb'
  | view o =>
    simp only [mstep]
    cases hs : m.surf o with
    | none => exact ⟨⟨h1, h2, h3⟩, hm⟩
    | some b =>
      refine ⟨⟨h1, h2, fun c hc => ?_⟩, hm⟩
      simp only [List.mem_append, List.mem_singleton] at hc
      rcases hc with hc | rfl
      · exact h3 c hc
      · exact h2 _ (h1 o _ hs)
  | points o =>
    simp only [mstep]
    cases hs : m.surf o with
    | none => exact ⟨⟨h1, h2, h3⟩, hm⟩
    | some b =>
      refine ⟨⟨fun o b hb => List.mem_cons_of_mem _ (h1 o b hb), fun c hc => ?_, fun c hc => ?_⟩, hm⟩
      · simp only [List.mem_cons] at hc ⊢
        rcases hc with rfl | hc
        · omega
        · have := h2 c hc; omega
      · simp only [List.mem_append, List.mem_singleton] at hc
        rcases hc with hc | rfl
        · have := h3 c hc; show c < m.next + 1; omega
        · exact Nat.lt_succ_self _
  | insert o =>
    simp only [mstep]
    cases hs : m.surf o with
    | none => exact ⟨⟨h1, h2, h3⟩, hm⟩
    | some b =>
      refine ⟨⟨fun i c hc => ?_, fun c hc => ?_, fun c hc => ?_⟩, fun i c hc j hc' => ?_⟩
      · simp only [upd] at hc
        split_ifs at hc with e
        · cases hc; exact List.mem_cons_self
        · refine List.mem_cons_of_mem _ (List.mem_filter.2 ⟨h1 i c hc, ?_⟩)
          simp only [ne_eq, decide_not, Bool.not_eq_true', decide_eq_false_iff_not]
          rintro rfl
          exact e (hm o c hs i hc)
      · simp only [List.mem_cons, List.mem_filter] at hc ⊢
        rcases hc with rfl | hc
        · omega
        · have := h2 c hc.1; omega
      · have := h3 c hc; show c < m.next + 1; omega
      · simp only [upd] at hc hc'
        split_ifs at hc hc' with e e' e'
        · omega
        · cases hc; have := h2 _ (h1 j _ hc'); omega
        · cases hc'; have := h2 _ (h1 i _ hc); omega
        · exact hm i c hc j hc'
  | collect o =>
    simp only [mstep]
    cases hs : m.surf o with
    | none => exact ⟨⟨h1, h2, h3⟩, hm⟩
    | some b =>
      refine ⟨⟨fun i c hc => ?_, fun c hc => h2 c (List.mem_filter.1 hc).1, h3⟩, fun i c hc j hc' => ?_⟩
      · simp only [upd] at hc
        split_ifs at hc with e
        refine List.mem_filter.2 ⟨h1 i c hc, ?_⟩
        simp only [ne_eq, decide_not, Bool.not_eq_true', decide_eq_false_iff_not]
        rintro rfl
        exact e (hm o c hs i hc)
      · simp only [upd] at hc hc'
        split_ifs at hc hc' with e e'
        exact hm i c hc j hc'

/-- The call does not give up a buffer that a view points to. -/
def Keeps (m : Mem) : MOp → Prop
  | .insert o => ∀ b, m.surf o = some b → b ∉ m.views
  | .collect o => ∀ b, m.surf o = some b → b ∉ m.views
  | _ => True

def MAll (ok : Mem → MOp → Prop) : Mem → List MOp → Prop
  | _, [] => True
  | m, op :: ops => ok m op ∧ MAll ok (mstep m op) ops

/-- Views are safe as long as no knot is inserted into a surface, and no surface is collected, of which a view was taken;
arrays from `control_points` are copies and are always safe. -/
theorem C414_views_partial (ops : List MOp) (h : MAll Keeps mempty ops) : Safe (mrun mempty ops) := by
  have key : ∀ (ops : List MOp) (m : Mem), MAll Keeps m ops → MInv m →
      (∀ o b, m.surf o = some b → ∀ o', m.surf o' = some b → o' = o) → Safe m → Safe (mrun m ops) := by
    intro ops
    induction ops with
    | nil => intro m _ _ _ hs; exact hs
    | cons op ops ih =>
      intro m ha hi hm hs
      obtain ⟨h1, h2⟩ := mstep_inv m op hm hi
      refine ih _ ha.2 h1 h2 ?_
      have hk := ha.1
      cases op with
      | create => exact fun b hb => List.mem_cons_of_mem _ (hs b hb)
      | view o =>
        simp only [mstep]
        cases e : m.surf o with
        | none => exact hs
        | some b =>
          intro c hc
          simp only [List.mem_append, List.mem_singleton] at hc
          rcases hc with hc | rfl
          · exact hs c hc
          · exact hi.live o _ e
      | points o =>
        simp only [mstep]
        cases e : m.surf o with
        | none => exact hs
        | some b =>
          intro c hc
          simp only [List.mem_append, List.mem_singleton] at hc
          rcases hc with hc | rfl
          · exact List.mem_cons_of_mem _ (hs c hc)
          · exact List.mem_cons_self
      | insert o =>
        simp only [mstep]
        cases e : m.surf o with
        | none => exact hs
        | some b =>
          intro c hc
          refine List.mem_cons_of_mem _ (List.mem_filter.2 ⟨hs c hc, ?_⟩)
          simp only [ne_eq, decide_not, Bool.not_eq_true', decide_eq_false_iff_not]
          rintro rfl
          exact hk c e hc
      | collect o =>
        simp only [mstep]
        cases e : m.surf o with
        | none => exact hs
        | some b =>
          intro c hc
          refine List.mem_filter.2 ⟨hs c hc, ?_⟩
          simp only [ne_eq, decide_not, Bool.not_eq_true', decide_eq_false_iff_not]
          rintro rfl
          exact hk c e hc
  refine key ops mempty h ⟨?_, ?_, ?_⟩ ?_ ?_
  · intro o b hb; simp [mempty] at hb
  · intro b hb; simp [mempty] at hb
  · intro b hb; simp [mempty] at hb
  · intro o b hb; simp [mempty] at hb
  · intro b hb; simp [mempty] at hb

/-- The points of one surface, taken as a copy, survive an insertion and the surface; a view does as long as other surfaces
are changed. -/
example : MAll Keeps mempty [.create, .create, .points 0, .view 1, .insert 0, .collect 0] := by
  refine ⟨trivial, trivial, trivial, trivial, ?_, ?_, trivial⟩
  · intro b hb; cases hb; decide
  · intro b hb; cases hb; decide

/-- A view taken from any surface in any state points to released memory after `insert_knot_u` of that surface, and after the
surface is collected (as in `NURBSSurface(...).control_points_w`, where nothing else refers to the surface). -/
theorem C414_dangling_refuted (m : Mem) (o b : Nat) (h : m.surf o = some b) (hb : ∀ c ∈ m.live, c < m.next)
    (h1 : b ∈ m.live) :
    ¬ Safe (mrun m [.view o, .insert o]) ∧ ¬ Safe (mrun m [.view o, .collect o]) := by
  have hlt := hb b h1
  constructor
  · intro hs
    have := hs b (by simp [mrun, mstep, h])
    simp [mrun, mstep, h] at this
    omega
  · intro hs
    have := hs b (by simp [mrun, mstep, h])
    simp [mrun, mstep, h] at this

example : (mrun mempty [.create]).surf 0 = some 0 ∧ (∀ c ∈ (mrun mempty [.create]).live, c < (mrun mempty [.create]).next) ∧
    0 ∈ (mrun mempty [.create]).live := by decide

end Verif.Nst
