import Verif.Nst.Model
import Mathlib.Algebra.Order.Field.Rat
import Mathlib.Data.List.Basic
import Mathlib.Data.Fintype.Pigeonhole
import Mathlib.Order.Interval.Finset.Defs
import Mathlib.Data.Int.Interval
import Mathlib.Tactic.SplitIfs
import Mathlib.Tactic.NormNum
import Mathlib.Tactic.Linarith
import Mathlib.Tactic.FieldSimp

/-! # C410: derived data of a curve; C411: equality of curves -/

set_option linter.unusedSectionVars false

namespace Verif.Nst

section
variable {K P : Type} [Field K] [LinearOrder K]

/-- The interval of a curve is given by its first and last knot. -/
def IvOk (s : St K P) (o : Nat) : Prop :=
  (s.obj o).iv = ((s.heap (s.obj o).kn).getD 0 0,
    (s.heap (s.obj o).kn).getD ((s.heap (s.obj o).kn).length - 1) 0)

/-- The Greville abscissae of a curve are those of its knots and its degree. -/
def GreOk (s : St K P) (o : Nat) : Prop :=
  (s.obj o).gre = grev (s.heap (s.obj o).kn) (s.obj o).degree

/-- The call speaks of curves and arrays that exist. -/
def Valid (s : St K P) : Op K P → Prop
  | .array _ => True
  | .write l _ => l < s.nk
  | .create _ _ l _ => ∀ i, l = some i → i < s.nk
  | .setDegree o _ => o < s.no
  | .setKnots o l => o < s.no ∧ l < s.nk
  | .setCtrl o _ => o < s.no
  | .set o _ l => o < s.no ∧ l < s.nk
  | .insert o _ _ => o < s.no
  | .normalize o => o < s.no
  | .makePeriodic o => o < s.no
  | .copy o => o < s.no
  | .reload o => o < s.no

/-- Calls that keep the interval in step: nothing writes into the knots of another curve, and `set` does not change
the ends of the knots. -/
def Calm (s : St K P) : Op K P → Prop
  | .write l _ => ∀ o < s.no, (s.obj o).kn ≠ l
  | .normalize o => ∀ o' < s.no, o' ≠ o → (s.obj o').kn ≠ (s.obj o).kn
  | .set o _ l => ends (s.heap l) = ends (s.heap (s.obj o).kn)
  | _ => True

/-- Calls that also keep the Greville abscissae in step. -/
def Calm2 (s : St K P) : Op K P → Prop
  | .write l _ => ∀ o < s.no, (s.obj o).kn ≠ l
  | .normalize o => ∀ o' < s.no, o' ≠ o → (s.obj o').kn ≠ (s.obj o).kn
  | .set o _ l => s.heap l = s.heap (s.obj o).kn
  | .setDegree o d => d = (s.obj o).degree
  | .insert _ _ c => c = 0
  | _ => True

/-- All calls of a history satisfy a condition. -/
def All (e : Env K P) (ok : St K P → Op K P → Prop) : St K P → List (Op K P) → Prop
  | _, [] => True
  | s, op :: ops => ok s op ∧ All e ok (step e s op) ops

/-- The knots of all curves exist. -/
def Refs (s : St K P) : Prop := ∀ o < s.no, (s.obj o).kn < s.nk

omit [LinearOrder K] in
theorem getD_range {α : Type} (f : Nat → K) (n i : Nat) (h : i < n) :
    at' ((List.range n).map f) i = f i := by
  unfold at'
  simp [List.getD_eq_getElem?_getD, h]

/-- Insertion of no knots gives the same knots. -/
theorem insKnots_zero (k : List K) (t : K) (span : Nat) : insKnots k t span 0 = k := by
  unfold insKnots
  apply List.ext_getElem
  · simp
  · intro i h1 h2
    simp only [List.getElem_map, List.getElem_range, Nurbs.knotInsertionKv, at']
    have h3 : i < k.length := h2
    split_ifs <;> simp [List.getD_eq_getElem?_getD, h3]

theorem hook_iv (s : St K P) (c : Crv K P) : (hook s c).iv = ends (s.heap c.kn) := rfl

/-- `make_periodic` keeps everything in step. -/
theorem mkPeriodic_refs (e : Env K P) (s : St K P) (o : Nat) (h : Refs s) : Refs (mkPeriodic e s o) := by
  unfold mkPeriodic
  dsimp only
  split_ifs with a
  · exact h
  · intro i hi
    simp only [St.put, St.alloc, hook, upd] at hi ⊢
    split_ifs with b
    · exact Nat.lt_succ_self _
    · exact Nat.lt_succ_of_lt (h i hi)

theorem mkPeriodic_iv (e : Env K P) (s : St K P) (o : Nat) (r : Refs s) (i : Nat) (hi : i < s.no)
    (h : IvOk s i) : IvOk (mkPeriodic e s o) i := by
  unfold mkPeriodic
  dsimp only
  split_ifs with a
  · exact h
  · have hk := r i hi
    unfold IvOk at h ⊢
    by_cases b : i = o
    · subst b
      simp [St.put, St.alloc, hook, upd, ends, at']
    · have hne : ¬ (s.obj i).kn = s.nk := by omega
      simp only [St.put, St.alloc, hook, upd, b, if_false, hne]
      exact h

theorem mkPeriodic_gre (e : Env K P) (s : St K P) (o : Nat) (r : Refs s) (i : Nat) (hi : i < s.no)
    (h : GreOk s i) : GreOk (mkPeriodic e s o) i := by
  unfold mkPeriodic
  dsimp only
  split_ifs with a
  · exact h
  · have hk := r i hi
    unfold GreOk at h ⊢
    by_cases b : i = o
    · subst b
      simp [St.put, St.alloc, hook, upd]
    · have hne : ¬ (s.obj i).kn = s.nk := by omega
      simp only [St.put, St.alloc, hook, upd, b, if_false, hne]
      exact h

theorem mkPeriodic_no (e : Env K P) (s : St K P) (o : Nat) : (mkPeriodic e s o).no = s.no := by
  unfold mkPeriodic
  dsimp only
  split_ifs <;> rfl

theorem mkBase_no (s : St K P) (cp : List P) (d : Nat) (l : Option Nat) (per : Bool) :
    (mkBase s cp d l per).no = s.no + 1 := by
  cases l <;> rfl

theorem mkBase_refs (s : St K P) (cp : List P) (d : Nat) (l : Option Nat) (per : Bool) (h : Refs s)
    (hl : ∀ i, l = some i → i < s.nk) : Refs (mkBase s cp d l per) := by
  intro i hi
  rw [mkBase_no] at hi
  cases l with
  | none =>
    simp only [mkBase, St.alloc, hook, upd]
    split_ifs with b
    · exact Nat.lt_succ_self _
    · exact Nat.lt_succ_of_lt (h i (by omega))
  | some l =>
    simp only [mkBase, hook, upd]
    split_ifs with b
    · exact hl l rfl
    · exact h i (by omega)

theorem mkBase_iv (s : St K P) (cp : List P) (d : Nat) (l : Option Nat) (per : Bool) (r : Refs s)
    (h : ∀ o < s.no, IvOk s o) (i : Nat) (hi : i < s.no + 1) : IvOk (mkBase s cp d l per) i := by
  cases l with
  | none =>
    by_cases b : i = s.no
    · subst b
      simp [IvOk, mkBase, St.alloc, hook, upd, ends, at']
    · have hk := r i (by omega)
      have hne : ¬ (s.obj i).kn = s.nk := by omega
      have := h i (by omega)
      simp only [IvOk, mkBase, St.alloc, hook, upd, b, if_false, hne] at this ⊢
      exact this
  | some l =>
    by_cases b : i = s.no
    · subst b
      simp [IvOk, mkBase, hook, upd, ends, at']
    · have := h i (by omega)
      simp only [IvOk, mkBase, hook, upd, b, if_false] at this ⊢
      exact this

theorem mkBase_gre (s : St K P) (cp : List P) (d : Nat) (l : Option Nat) (per : Bool) (r : Refs s)
    (h : ∀ o < s.no, GreOk s o) (i : Nat) (hi : i < s.no + 1) : GreOk (mkBase s cp d l per) i := by
  cases l with
  | none =>
    by_cases b : i = s.no
    · subst b
      simp [GreOk, mkBase, St.alloc, hook, upd]
    · have hk := r i (by omega)
      have hne : ¬ (s.obj i).kn = s.nk := by omega
      have := h i (by omega)
      simp only [GreOk, mkBase, St.alloc, hook, upd, b, if_false, hne] at this ⊢
      exact this
  | some l =>
    by_cases b : i = s.no
    · subst b
      simp [GreOk, mkBase, hook, upd]
    · have := h i (by omega)
      simp only [GreOk, mkBase, hook, upd, b, if_false] at this ⊢
      exact this

theorem step_refs (e : Env K P) (s : St K P) (op : Op K P) (v : Valid s op) (h : Refs s) :
    Refs (step e s op) := by
  cases op with
  | array k => intro o ho; exact Nat.lt_succ_of_lt (h o ho)
  | write l k => exact h
  | create cp d l per =>
    simp only [step]
    have h1 := mkBase_refs s cp d l per h v
    split_ifs
    · exact mkPeriodic_refs e _ _ h1
    · exact h1
  | setDegree o d =>
    intro i hi; simp only [step, St.put, upd] at hi ⊢
    split_ifs with b
    · exact h o v
    · exact h i hi
  | setKnots o l =>
    intro i hi; simp only [step, St.put, upd, hook] at hi ⊢
    split_ifs with b
    · exact v.2
    · exact h i hi
  | setCtrl o cp =>
    intro i hi; simp only [step, St.put, upd] at hi ⊢
    split_ifs with b
    · exact h o v
    · exact h i hi
  | set o cp l =>
    intro i hi; simp only [step, St.put, upd] at hi ⊢
    split_ifs with b
    · exact v.2
    · exact h i hi
  | insert o t c =>
    intro i hi; simp only [step, St.put, upd, St.alloc] at hi ⊢
    split_ifs with b
    · exact Nat.lt_succ_self _
    · exact Nat.lt_succ_of_lt (h i hi)
  | normalize o =>
    intro i hi; simp only [step, St.put, upd, hook] at hi ⊢
    split_ifs with b
    · exact h o v
    · exact h i hi
  | makePeriodic o => exact mkPeriodic_refs e s o h
  | copy o =>
    intro i hi; simp only [step, upd, St.alloc] at hi ⊢
    split_ifs with b
    · exact Nat.lt_succ_self _
    · exact Nat.lt_succ_of_lt (h i (by omega))
  | reload o =>
    intro i hi; simp only [step, upd, St.alloc, hook] at hi ⊢
    split_ifs with b
    · exact Nat.lt_succ_self _
    · exact Nat.lt_succ_of_lt (h i (by omega))

theorem step_iv (e : Env K P) (s : St K P) (op : Op K P) (v : Valid s op) (cm : Calm s op) (r : Refs s)
    (h : ∀ o < s.no, IvOk s o) (i : Nat) (hi : i < (step e s op).no) : IvOk (step e s op) i := by
  cases op with
  | array k =>
    have hi : i < s.no := hi
    have hk := r i hi
    have hne : ¬ (s.obj i).kn = s.nk := by omega
    have := h i hi
    simp only [IvOk, step, St.alloc, upd, hne, if_false] at this ⊢
    exact this
  | write l k =>
    have := h i hi
    simp only [IvOk, step, upd, cm i hi, if_false] at this ⊢
    exact this
  | create cp d l per =>
    simp only [step] at hi ⊢
    have h1 := mkBase_refs s cp d l per r v
    have h2 := mkBase_iv s cp d l per r h
    split_ifs at hi ⊢
    · rw [mkPeriodic_no] at hi
      exact mkPeriodic_iv e _ _ h1 i hi (h2 i (by rw [mkBase_no] at hi; exact hi))
    · exact h2 i (by rw [mkBase_no] at hi; exact hi)
  | setDegree o d =>
    have := h i hi
    by_cases b : i = o
    · subst b; simpa [IvOk, step, St.put, upd] using this
    · simpa [IvOk, step, St.put, upd, b] using this
  | setKnots o l =>
    have := h i hi
    by_cases b : i = o
    · subst b; simp [IvOk, step, St.put, upd, hook, ends, at']
    · simpa [IvOk, step, St.put, upd, b] using this
  | setCtrl o cp =>
    have := h i hi
    by_cases b : i = o
    · subst b; simpa [IvOk, step, St.put, upd] using this
    · simpa [IvOk, step, St.put, upd, b] using this
  | set o cp l =>
    have := h i hi
    by_cases b : i = o
    · subst b
      have cm : ends (s.heap l) = ends (s.heap (s.obj i).kn) := cm
      unfold IvOk at this ⊢
      simp only [step, St.put, upd, if_true]
      rw [this]
      exact cm.symm
    · simpa [IvOk, step, St.put, upd, b] using this
  | insert o t c =>
    have hi : i < s.no := hi
    have hk := r i hi
    have hne : ¬ (s.obj i).kn = s.nk := by omega
    have := h i hi
    by_cases b : i = o
    · subst b; simp [IvOk, step, St.put, St.alloc, upd, ends, at']
    · simp only [IvOk, step, St.put, St.alloc, upd, b, hne, if_false] at this ⊢
      exact this
  | normalize o =>
    have := h i hi
    by_cases b : i = o
    · subst b; simp [IvOk, step, St.put, upd, hook, ends, at']
    · have := h i hi
      have hne := cm i hi b
      simp only [IvOk, step, St.put, upd, b, hne, if_false] at this ⊢
      exact this
  | makePeriodic o =>
    have hi' : i < s.no := by simpa [step, mkPeriodic_no] using hi
    exact mkPeriodic_iv e s o r i hi' (h i hi')
  | copy o =>
    by_cases b : i = s.no
    · subst b
      have hk := r o v
      have := h o v
      simp only [IvOk, step, St.alloc, upd, if_true] at this ⊢
      exact this
    · have hi : i < s.no + 1 := hi
      have hk := r i (by omega)
      have hne : ¬ (s.obj i).kn = s.nk := by omega
      have := h i (by omega)
      simp only [IvOk, step, St.alloc, upd, b, hne, if_false] at this ⊢
      exact this
  | reload o =>
    by_cases b : i = s.no
    · subst b
      simp [IvOk, step, St.alloc, upd, hook, ends, at']
    · have hi : i < s.no + 1 := hi
      have hk := r i (by omega)
      have hne : ¬ (s.obj i).kn = s.nk := by omega
      have := h i (by omega)
      simp only [IvOk, step, St.alloc, upd, b, hne, if_false] at this ⊢
      exact this

theorem step_gre (e : Env K P) (s : St K P) (op : Op K P) (v : Valid s op) (cm : Calm2 s op) (r : Refs s)
    (h : ∀ o < s.no, GreOk s o) (i : Nat) (hi : i < (step e s op).no) : GreOk (step e s op) i := by
  cases op with
  | array k =>
    have hi : i < s.no := hi
    have hk := r i hi
    have hne : ¬ (s.obj i).kn = s.nk := by omega
    have := h i hi
    simp only [GreOk, step, St.alloc, upd, hne, if_false] at this ⊢
    exact this
  | write l k =>
    have := h i hi
    simp only [GreOk, step, upd, cm i hi, if_false] at this ⊢
    exact this
  | create cp d l per =>
    simp only [step] at hi ⊢
    have h1 := mkBase_refs s cp d l per r v
    have h2 := mkBase_gre s cp d l per r h
    split_ifs at hi ⊢
    · rw [mkPeriodic_no] at hi
      exact mkPeriodic_gre e _ _ h1 i hi (h2 i (by rw [mkBase_no] at hi; exact hi))
    · exact h2 i (by rw [mkBase_no] at hi; exact hi)
  | setDegree o d =>
    have := h i hi
    have cm : d = (s.obj o).degree := cm
    by_cases b : i = o
    · subst b; subst cm; simpa [GreOk, step, St.put, upd] using this
    · simpa [GreOk, step, St.put, upd, b] using this
  | setKnots o l =>
    have := h i hi
    by_cases b : i = o
    · subst b; simp [GreOk, step, St.put, upd, hook]
    · simpa [GreOk, step, St.put, upd, b] using this
  | setCtrl o cp =>
    have := h i hi
    by_cases b : i = o
    · subst b; simpa [GreOk, step, St.put, upd] using this
    · simpa [GreOk, step, St.put, upd, b] using this
  | set o cp l =>
    have := h i hi
    by_cases b : i = o
    · subst b
      have cm : s.heap l = s.heap (s.obj i).kn := cm
      unfold GreOk at this ⊢
      simp only [step, St.put, upd, if_true]
      rw [this, cm]
    · simpa [GreOk, step, St.put, upd, b] using this
  | insert o t c =>
    have hi : i < s.no := hi
    have cm : c = 0 := cm
    have hk := r i hi
    have hne : ¬ (s.obj i).kn = s.nk := by omega
    have := h i hi
    by_cases b : i = o
    · subst b; subst cm
      simp only [GreOk, step, St.put, St.alloc, upd, if_true, insKnots_zero] at this ⊢
      exact this
    · simp only [GreOk, step, St.put, St.alloc, upd, b, hne, if_false] at this ⊢
      exact this
  | normalize o =>
    have := h i hi
    by_cases b : i = o
    · subst b; simp [GreOk, step, St.put, upd, hook]
    · have := h i hi
      have hne := cm i hi b
      simp only [GreOk, step, St.put, upd, b, hne, if_false] at this ⊢
      exact this
  | makePeriodic o =>
    have hi' : i < s.no := by simpa [step, mkPeriodic_no] using hi
    exact mkPeriodic_gre e s o r i hi' (h i hi')
  | copy o =>
    by_cases b : i = s.no
    · subst b
      have := h o v
      simp only [GreOk, step, St.alloc, upd, if_true] at this ⊢
      exact this
    · have hi : i < s.no + 1 := hi
      have hk := r i (by omega)
      have hne : ¬ (s.obj i).kn = s.nk := by omega
      have := h i (by omega)
      simp only [GreOk, step, St.alloc, upd, b, hne, if_false] at this ⊢
      exact this
  | reload o =>
    by_cases b : i = s.no
    · subst b
      simp [GreOk, step, St.alloc, upd, hook]
    · have hi : i < s.no + 1 := hi
      have hk := r i (by omega)
      have hne : ¬ (s.obj i).kn = s.nk := by omega
      have := h i (by omega)
      simp only [GreOk, step, St.alloc, upd, b, hne, if_false] at this ⊢
      exact this

theorem all_refs (e : Env K P) (ops : List (Op K P)) : ∀ s : St K P, All e Valid s ops → Refs s →
    Refs (run e s ops) := by
  induction ops with
  | nil => intro s _ h; exact h
  | cons op ops ih => intro s ha h; exact ih _ ha.2 (step_refs e s op ha.1 h)

/-- After all histories of calls that do not write into the knots of another curve, and in which `set` keeps the ends of
the knots, the interval of every curve is that of its knots. -/
theorem C410_interval_partial (e : Env K P) (ops : List (Op K P))
    (h : All e (fun s op => Valid s op ∧ Calm s op) empty ops) (o : Nat) (ho : o < (run e empty ops).no) :
    IvOk (run e empty ops) o := by
  have key : ∀ (ops : List (Op K P)) (s : St K P), All e (fun s op => Valid s op ∧ Calm s op) s ops → Refs s →
      (∀ o < s.no, IvOk s o) → ∀ o < (run e s ops).no, IvOk (run e s ops) o := by
    intro ops
    induction ops with
    | nil => intro s _ _ hs; exact hs
    | cons op ops ih =>
      intro s ha r hs
      exact ih _ ha.2 (step_refs e s op ha.1.1 r) (step_iv e s op ha.1.1 ha.1.2 r hs)
  exact key ops empty h (fun i hi => absurd hi (Nat.not_lt_zero _)) (fun i hi => absurd hi (Nat.not_lt_zero _)) o ho

/-- Likewise the Greville abscissae, if moreover no degree is changed and no knot is inserted. -/
theorem C410_greville_partial (e : Env K P) (ops : List (Op K P))
    (h : All e (fun s op => Valid s op ∧ Calm2 s op) empty ops) (o : Nat) (ho : o < (run e empty ops).no) :
    GreOk (run e empty ops) o := by
  have key : ∀ (ops : List (Op K P)) (s : St K P), All e (fun s op => Valid s op ∧ Calm2 s op) s ops → Refs s →
      (∀ o < s.no, GreOk s o) → ∀ o < (run e s ops).no, GreOk (run e s ops) o := by
    intro ops
    induction ops with
    | nil => intro s _ _ hs; exact hs
    | cons op ops ih =>
      intro s ha r hs
      exact ih _ ha.2 (step_refs e s op ha.1.1 r) (step_gre e s op ha.1.1 ha.1.2 r hs)
  exact key ops empty h (fun i hi => absurd hi (Nat.not_lt_zero _)) (fun i hi => absurd hi (Nat.not_lt_zero _)) o ho

/-- After `insert_knot` of `c > 0` knots there are `c` abscissae too few: as many as before, for `c` more control
points (there is one abscissa for each control point). -/
theorem C410_insert_refuted (e : Env K P) (s : St K P) (o : Nat) (t : K) (c : Nat) (hc : 0 < c)
    (h : GreOk s o) (hk : (s.obj o).degree + 1 ≤ (s.heap (s.obj o).kn).length) :
    ((step e s (.insert o t c)).obj o).gre = (s.obj o).gre ∧
    (grev ((step e s (.insert o t c)).heap ((step e s (.insert o t c)).obj o).kn)
      ((step e s (.insert o t c)).obj o).degree).length =
        ((step e s (.insert o t c)).obj o).gre.length + c ∧
    ¬ GreOk (step e s (.insert o t c)) o := by
  have h1 : ((step e s (.insert o t c)).obj o).gre = (s.obj o).gre := by simp [step, St.put, St.alloc, upd]
  have h2 : (grev ((step e s (.insert o t c)).heap ((step e s (.insert o t c)).obj o).kn)
      ((step e s (.insert o t c)).obj o).degree).length = ((step e s (.insert o t c)).obj o).gre.length + c := by
    rw [h1, h]
    simp [grev, step, St.put, St.alloc, upd, insKnots]
    omega
  refine ⟨h1, h2, fun h3 => ?_⟩
  unfold GreOk at h3
  rw [← h3] at h2
  omega

/-- After a change of the degree the abscissae are those of the old degree, and their number is wrong. -/
theorem C410_degree_refuted (e : Env K P) (s : St K P) (o d : Nat) (h : GreOk s o)
    (hd : d ≠ (s.obj o).degree) (h1 : (s.obj o).degree + 1 ≤ (s.heap (s.obj o).kn).length)
    (h2 : d + 1 ≤ (s.heap (s.obj o).kn).length) :
    ((step e s (.setDegree o d)).obj o).gre.length ≠ (s.heap (s.obj o).kn).length - d - 1 ∧
    ¬ GreOk (step e s (.setDegree o d)) o := by
  have h3 : ((step e s (.setDegree o d)).obj o).gre.length ≠ (s.heap (s.obj o).kn).length - d - 1 := by
    have : ((step e s (.setDegree o d)).obj o).gre = (s.obj o).gre := by simp [step, St.put, upd]
    rw [this, h]
    simp [grev]
    omega
  refine ⟨h3, fun h4 => h3 ?_⟩
  unfold GreOk at h4
  rw [h4]
  simp [grev, step, St.put, upd]

/-- `set` with knots of other ends leaves the old interval. -/
theorem C410_set_refuted (e : Env K P) (s : St K P) (o : Nat) (cp : List P) (l : Nat) (h : IvOk s o)
    (hl : ends (s.heap l) ≠ ends (s.heap (s.obj o).kn)) : ¬ IvOk (step e s (.set o cp l)) o := by
  intro h1
  apply hl
  have : (s.obj o).iv = ends (s.heap (s.obj o).kn) := h
  rw [← this]
  have h2 : ((step e s (.set o cp l)).obj o).iv = ends (s.heap l) := by
    unfold IvOk at h1
    rw [h1]
    simp [step, St.put, upd, ends, at']
  rw [← h2]
  simp [step, St.put, upd]

/-- Two curves made with the same array of knots: `normalize_knots` of one changes the knots of the other, whose interval
is then wrong unless the knots ran from 0 to 1 before. -/
theorem C410_shared_refuted (e : Env K P) (s : St K P) (a b : Nat) (hab : b ≠ a)
    (hs : (s.obj b).kn = (s.obj a).kn) (h : IvOk s b)
    (hne : ends (normCurve (s.heap (s.obj a).kn)) ≠ ends (s.heap (s.obj a).kn)) :
    (step e s (.normalize a)).heap ((step e s (.normalize a)).obj b).kn = normCurve (s.heap (s.obj b).kn) ∧
    ¬ IvOk (step e s (.normalize a)) b := by
  have h1 : (step e s (.normalize a)).heap ((step e s (.normalize a)).obj b).kn =
      normCurve (s.heap (s.obj b).kn) := by
    simp [step, St.put, upd, hab, hs]
  refine ⟨h1, fun h2 => hne ?_⟩
  unfold IvOk at h2
  rw [h1] at h2
  have h3 : ((step e s (.normalize a)).obj b).iv = (s.obj b).iv := by simp [step, St.put, upd, hab]
  rw [h3, h, hs] at h2
  exact h2.symm

/-! ## Equality -/

/-- Curves with the same data and in step with their knots are equal, whatever the hash function is. -/
theorem C411_same (h : Nat × List K × List P × K × K → Int) (s : St K P) (a b : Nat)
    (hd : (s.obj a).degree = (s.obj b).degree) (hk : s.heap (s.obj a).kn = s.heap (s.obj b).kn)
    (hc : (s.obj a).cp = (s.obj b).cp) (ha : IvOk s a) (hb : IvOk s b) : eqCrv h s a b = true := by
  have : (s.obj a).iv = (s.obj b).iv := by rw [ha, hb, hk]
  simp [eqCrv, geometryHash, hd, hk, hc, this]

/-- If the hash does not collide, curves that are equal have the same degree, knots, control points and interval. -/
theorem C411_equal_partial (h : Nat × List K × List P × K × K → Int) (hh : Function.Injective h) (s : St K P)
    (a b : Nat) (he : eqCrv h s a b = true) :
    (s.obj a).degree = (s.obj b).degree ∧ s.heap (s.obj a).kn = s.heap (s.obj b).kn ∧
      (s.obj a).cp = (s.obj b).cp ∧ (s.obj a).iv = (s.obj b).iv := by
  simp only [eqCrv, geometryHash, beq_iff_eq] at he
  have := hh he
  simp only [Prod.mk.injEq] at this
  exact ⟨this.1, this.2.1, this.2.2.1, Prod.ext this.2.2.2.1 this.2.2.2.2⟩

/-- `==` is reflexive, symmetric and transitive. -/
theorem C411_equivalence (h : Nat × List K × List P × K × K → Int) (s : St K P) :
    (∀ a, eqCrv h s a a = true) ∧ (∀ a b, eqCrv h s a b = eqCrv h s b a) ∧
    (∀ a b c, eqCrv h s a b = true → eqCrv h s b c = true → eqCrv h s a c = true) := by
  refine ⟨fun a => by simp [eqCrv], fun a b => by simp [eqCrv, Bool.beq_comm], fun a b c h1 h2 => ?_⟩
  simp only [eqCrv, beq_iff_eq] at h1 h2 ⊢
  rw [h1, h2]

/-- A hash is a 64 bit number: whatever the hash function, two curves with different control points are equal. -/
theorem C411_collision_refuted [Infinite P] (h : Nat × List K × List P × K × K → Int) (N : Int)
    (hN : ∀ x, -N ≤ h x ∧ h x ≤ N) (d : Nat) (k : List K) :
    ∃ (p q : P) (s : St K P), p ≠ q ∧ (s.obj 0).cp = [p] ∧ (s.obj 1).cp = [q] ∧ IvOk s 0 ∧ IvOk s 1 ∧
      (s.obj 0).degree = d ∧ (s.obj 1).degree = d ∧ s.heap (s.obj 0).kn = k ∧ s.heap (s.obj 1).kn = k ∧
      eqCrv h s 0 1 = true := by
  let f : P → Set.Icc (-N) N := fun p => ⟨h (d, k, [p], (ends k).1, (ends k).2), hN _⟩
  obtain ⟨p, q, hpq, hf⟩ := Finite.exists_ne_map_eq_of_infinite f
  let s : St K P := ⟨fun _ => k, 1, fun i => ⟨[if i = 0 then p else q], d, 0, ends k, [], false⟩, 2⟩
  refine ⟨p, q, s, hpq, rfl, rfl, rfl, rfl, rfl, rfl, rfl, rfl, ?_⟩
  have := congrArg Subtype.val hf
  simpa [eqCrv, geometryHash, s, f] using this

/-- A curve is equal to the integer that is its hash (`hash` of an integer below `2^61 - 1` is the integer). -/
theorem C411_integer_refuted (h : Nat × List K × List P × K × K → Int) (hash : Int → Int) (s : St K P) (a : Nat)
    (hi : hash (geometryHash h s a) = geometryHash h s a) :
    ∃ n : Int, eqObj h s a (hash n) = true :=
  ⟨geometryHash h s a, by simp [eqObj, hi]⟩

/-- The flag `periodic` is not looked at: a periodic curve is equal to the curve with the same points and knots that is not
periodic. -/
theorem C411_periodic_refuted (h : Nat × List K × List P × K × K → Int) (e : Env K P) (cp : List P) (d : Nat)
    (k : List K) (hp : e.isPer d cp = true) :
    let s := run e empty [.array k, .create cp d (some 0) true, .create cp d (some 0) false]
    (s.obj 0).periodic = true ∧ (s.obj 1).periodic = false ∧ eqCrv h s 0 1 = true := by
  simp [run, step, mkBase, mkPeriodic, hook, St.alloc, upd, empty, eqCrv, geometryHash, hp]

/-- Two curves with the same degree, knots and control points may be unequal: after `set` the interval is the old one. -/
theorem C411_stale_refuted (h : Nat × List K × List P × K × K → Int) (hh : Function.Injective h) (e : Env K P)
    (cp : List P) (d : Nat) (k k' : List K) (hk : ends k ≠ ends k') :
    let s := run e empty [.array k, .array k', .create cp d (some 0) false, .create cp d (some 1) false, .set 0 cp 1]
    (s.obj 0).degree = (s.obj 1).degree ∧ (s.obj 0).cp = (s.obj 1).cp ∧ (s.obj 0).kn = (s.obj 1).kn ∧
      (s.obj 0).periodic = (s.obj 1).periodic ∧ eqCrv h s 0 1 = false := by
  refine ⟨by simp [run, step, mkBase, hook, St.alloc, St.put, upd, empty],
    by simp [run, step, mkBase, hook, St.alloc, St.put, upd, empty],
    by simp [run, step, mkBase, hook, St.alloc, St.put, upd, empty],
    by simp [run, step, mkBase, hook, St.alloc, St.put, upd, empty], ?_⟩
  rw [Bool.eq_false_iff]
  intro he
  have := (C411_equal_partial h hh _ _ _ he).2.2.2
  apply hk
  simpa [run, step, mkBase, hook, St.alloc, St.put, upd, empty] using this
end

/-! ## Instances -/

/-- Parts taken over from other models, for the examples: linear search for the span and unchanged points. -/
def exEnv : Env ℚ ℚ := ⟨fun d cp => decide (cp.take d = cp.drop (cp.length - d)), fun cp _ _ _ => cp.length - 1, fun cp _ _ _ c => cp ++ List.replicate c 0⟩

/-- A history that meets the conditions of `C410_interval_partial`: knots, a curve, an insertion, a change of degree, a
periodic curve, a copy and its normalisation. -/
def exOps : List (Op ℚ ℚ) :=
  [.array [0, 0, 1, 3, 3], .create [1, 2, 3] 1 (some 0) false, .insert 0 2 1, .setDegree 0 2, .create [5, 7, 6] 2 none true,
    .copy 1, .normalize 2]

def stp : Nat → St ℚ ℚ := fun n => run exEnv empty (exOps.take n)

example : All exEnv (fun s op => Valid s op ∧ Calm s op) empty exOps := by
  refine ⟨⟨trivial, trivial⟩, ⟨?_, trivial⟩, ⟨?_, trivial⟩, ⟨?_, trivial⟩, ⟨?_, trivial⟩, ⟨?_, trivial⟩, ⟨?_, ?_⟩, trivial⟩
  · intro i h; cases h; decide
  · show 0 < (stp 2).no; decide +kernel
  · show 0 < (stp 3).no; decide +kernel
  · intro i h; cases h
  · show 1 < (stp 5).no; decide +kernel
  · show 2 < (stp 6).no; decide +kernel
  · show ∀ o' < (stp 6).no, o' ≠ 2 → ((stp 6).obj o').kn ≠ ((stp 6).obj 2).kn; decide +kernel

example : ((stp 7).obj 0).iv = (0, 3) ∧ ((stp 7).obj 1).iv = (-2, 5) ∧ ((stp 7).obj 2).iv = (0, 1) := by decide +kernel

/-- The knots of a curve of degree 1 with three control points: three abscissae; after an insertion still three, for four
control points. -/
example : ((stp 2).obj 0).gre = [0, 1, 3] ∧ ((stp 3).obj 0).gre = [0, 1, 3] ∧ ((stp 3).obj 0).cp.length = 4 := by
  decide +kernel

example : GreOk (stp 2) 0 ∧ ((stp 2).obj 0).degree + 1 ≤ ((stp 2).heap ((stp 2).obj 0).kn).length := by
  unfold GreOk
  decide +kernel

/-- A history for `C410_greville_partial`. -/
example : All exEnv (fun s op => Valid s op ∧ Calm2 s op) empty
    [.array [0, 0, 1, 3, 3], .create [1, 2, 3] 1 (some 0) false, .normalize 0, .makePeriodic 0] := by
  refine ⟨⟨trivial, trivial⟩, ⟨?_, trivial⟩, ⟨?_, ?_⟩, ⟨?_, trivial⟩, trivial⟩
  · intro i h; cases h; decide
  · show 0 < (stp 2).no; decide +kernel
  · show ∀ o' < (stp 2).no, o' ≠ 0 → ((stp 2).obj o').kn ≠ ((stp 2).obj 0).kn; decide +kernel
  · show 0 < (step exEnv (stp 2) (.normalize 0)).no; decide +kernel

/-- Hypotheses of `C410_set_refuted` and `C410_shared_refuted`. -/
def two : St ℚ ℚ :=
  run exEnv empty [.array [0, 0, 1, 3, 3], .array [1, 1, 2, 4, 4], .create [1, 2, 3] 1 (some 0) false, .create [1, 2, 3] 1 (some 0) false]

example : IvOk two 0 ∧ IvOk two 1 ∧ ends (two.heap 1) ≠ ends (two.heap (two.obj 0).kn) ∧ (two.obj 1).kn = (two.obj 0).kn ∧
    ends (normCurve (two.heap (two.obj 0).kn)) ≠ ends (two.heap (two.obj 0).kn) := by
  unfold IvOk
  decide +kernel

/-- Points that wrap around for `C411_periodic_refuted`. -/
example : exEnv.isPer 2 [1, 2, 3, 1, 2] = true := by decide +kernel

end Verif.Nst
