import Verif.NCache.Model
import Mathlib.Tactic.Tauto
import Mathlib.Tactic.SplitIfs

/-! # C37: cached evaluation -/

set_option linter.unusedSectionVars false

namespace Verif.NCache

variable {C K T V : Type} [DecidableEq T]

/-- A call that does nothing behind the back of a cache: no `copy()`, no change of the degree of a
curve that has been evaluated, no array used by two curves, and no writing into arrays of a curve
or into results that are in a cache. -/
def Quiet (s : St C K T V) : Call C K T V → Prop
  | .create _ lk _ _ => ∀ o, o < s.no → (s.obj o).kn ≠ lk
  | .setKnots o lk => ∀ p, p < s.no → p ≠ o → (s.obj p).kn ≠ lk
  | .set o lc lk => ∀ p, p < s.no → p ≠ o → (s.obj p).cp ≠ lc ∧ (s.obj p).kn ≠ lk
  | .setDegree o d => (s.obj o).cache = [] ∨ d = (s.obj o).degree
  | .copy _ => False
  | .writeCtrl l _ => ∀ o, o < s.no → (s.obj o).cp = l → (s.obj o).cache = []
  | .writeKnots l _ => ∀ o, o < s.no → (s.obj o).kn = l → (s.obj o).cache = []
  | .writeRes l _ => ∀ o, o < s.no → ∀ e ∈ (s.obj o).cache, e.2 ≠ l
  | _ => True

/-- A history of existing objects without such calls. -/
inductive Reach (ev : Dat C K → T → V) (s0 : St C K T V) : St C K T V → Prop
  | start : Reach ev s0 s0
  | step {s : St C K T V} (c : Call C K T V) : Reach ev s0 s → Valid s c → Quiet s c →
      Reach ev s0 (exec ev s c).2

/-- Every cached result is the value of the current data; curves share no arrays. -/
structure Inv (ev : Dat C K → T → V) (s : St C K T V) : Prop where
  owner : ∀ o, o < s.no → (s.obj o).owner = o
  cached : ∀ o, o < s.no → ∀ e ∈ (s.obj o).cache, s.res e.2 = ev (s.data o) e.1
  alloc : ∀ o, o < s.no → (s.obj o).cp < s.nc ∧ (s.obj o).kn < s.nk ∧
    ∀ e ∈ (s.obj o).cache, e.2 < s.nr
  apart : ∀ o p, o < s.no → p < s.no → o ≠ p → (s.obj o).cp ≠ (s.obj p).cp ∧
    (s.obj o).kn ≠ (s.obj p).kn

theorem find_mem (t : T) : ∀ (l : List (T × Nat)) (n : Nat), find t l = some n → (t, n) ∈ l
  | [], n, h => by simp [find] at h
  | e :: l, n, h => by
    rw [find] at h
    split_ifs at h with c
    · cases h
      obtain ⟨a, b⟩ := e
      dsimp only at c
      subst c
      simp
    · exact List.mem_cons_of_mem _ (find_mem t l n h)

theorem upd_same {α : Type} (f : Nat → α) (i : Nat) (a : α) : upd f i a i = a := if_pos rfl

theorem upd_ne {α : Type} (f : Nat → α) {i j : Nat} (a : α) (h : j ≠ i) : upd f i a j = f j := if_neg h

/-- What a step needs to keep the invariant: the curve `o` has changed to `x` with an empty cache, the
others have the same fields and data, results are kept. -/
theorem Inv.change {ev : Dat C K → T → V} {s t : St C K T V} (i : Inv ev s) (o : Nat) (x : Obj T)
    (hobj : t.obj = upd s.obj o x) (hno : t.no = s.no) (hx : x.cache = []) (hown : x.owner = o)
    (hres : t.res = s.res) (hnr : t.nr = s.nr) (hnc : s.nc ≤ t.nc) (hnk : s.nk ≤ t.nk)
    (hcp : x.cp < t.nc) (hkn : x.kn < t.nk)
    (hdat : ∀ p, p < s.no → p ≠ o → t.ctrl (s.obj p).cp = s.ctrl (s.obj p).cp ∧
      t.kn (s.obj p).kn = s.kn (s.obj p).kn)
    (hap : ∀ p, p < s.no → p ≠ o → (s.obj p).cp ≠ x.cp ∧ (s.obj p).kn ≠ x.kn) : Inv ev t := by
  have other : ∀ p, p ≠ o → t.obj p = s.obj p := fun p hp => by rw [hobj, upd_ne _ _ hp]
  have self : t.obj o = x := by rw [hobj, upd_same]
  refine ⟨?_, ?_, ?_, ?_⟩
  · intro p hp
    rw [hno] at hp
    by_cases c : p = o
    · rw [c, self, hown]
    · rw [other p c]; exact i.owner p hp
  · intro p hp e he
    rw [hno] at hp
    by_cases c : p = o
    · rw [c, self, hx] at he; simp at he
    · rw [other p c] at he
      rw [hres, i.cached p hp e he]
      unfold St.data
      rw [other p c, (hdat p hp c).1, (hdat p hp c).2]
  · intro p hp
    rw [hno] at hp
    by_cases c : p = o
    · rw [c, self, hx]; exact ⟨hcp, hkn, by simp⟩
    · rw [other p c, hnr]
      obtain ⟨h1, h2, h3⟩ := i.alloc p hp
      exact ⟨by omega, by omega, h3⟩
  · intro p q hp hq hne
    rw [hno] at hp hq
    by_cases c : p = o
    · have d : q ≠ o := fun h => hne (c.trans h.symm)
      rw [c, self, other q d]
      exact ⟨(hap q hq d).1.symm, (hap q hq d).2.symm⟩
    · by_cases d : q = o
      · rw [d, self, other p c]
        exact hap p hp c
      · rw [other p c, other q d]
        exact i.apart p q hp hq hne

/-- The same for a new curve. -/
theorem Inv.add {ev : Dat C K → T → V} {s t : St C K T V} (i : Inv ev s) (x : Obj T)
    (hobj : t.obj = upd s.obj s.no x) (hno : t.no = s.no + 1) (hx : x.cache = [])
    (hown : x.owner = s.no) (hres : t.res = s.res) (hnr : t.nr = s.nr) (hnc : s.nc ≤ t.nc)
    (hnk : s.nk ≤ t.nk) (hcp : x.cp < t.nc) (hkn : x.kn < t.nk)
    (hdat : ∀ p, p < s.no → t.ctrl (s.obj p).cp = s.ctrl (s.obj p).cp ∧
      t.kn (s.obj p).kn = s.kn (s.obj p).kn)
    (hap : ∀ p, p < s.no → (s.obj p).cp ≠ x.cp ∧ (s.obj p).kn ≠ x.kn) : Inv ev t := by
  have other : ∀ p, p < s.no → t.obj p = s.obj p := fun p hp => by
    rw [hobj, upd_ne _ _ (Nat.ne_of_lt hp)]
  have self : t.obj s.no = x := by rw [hobj, upd_same]
  have cases' : ∀ p, p < t.no → p = s.no ∨ p < s.no := fun p hp => by omega
  refine ⟨?_, ?_, ?_, ?_⟩
  · intro p hp
    rcases cases' p hp with rfl | c
    · rw [self, hown]
    · rw [other p c]; exact i.owner p c
  · intro p hp e he
    rcases cases' p hp with rfl | c
    · rw [self, hx] at he; simp at he
    · rw [other p c] at he
      rw [hres, i.cached p c e he]
      unfold St.data
      rw [other p c, (hdat p c).1, (hdat p c).2]
  · intro p hp
    rcases cases' p hp with rfl | c
    · rw [self, hx]; exact ⟨hcp, hkn, by simp⟩
    · rw [other p c, hnr]
      obtain ⟨h1, h2, h3⟩ := i.alloc p c
      exact ⟨by omega, by omega, h3⟩
  · intro p q hp hq hne
    rcases cases' p hp with rfl | c
    · rcases cases' q hq with rfl | d
      · exact absurd rfl hne
      · rw [self, other q d]
        exact ⟨(hap q d).1.symm, (hap q d).2.symm⟩
    · rcases cases' q hq with rfl | d
      · rw [self, other p c]
        exact hap p c
      · rw [other p c, other q d]
        exact i.apart p q c d hne

/-- A step that leaves the curves: data may change only for curves with an empty cache. -/
theorem Inv.heap {ev : Dat C K → T → V} {s t : St C K T V} (i : Inv ev s) (hobj : t.obj = s.obj)
    (hno : t.no = s.no) (hnc : s.nc ≤ t.nc) (hnk : s.nk ≤ t.nk) (hnr : s.nr ≤ t.nr)
    (hres : ∀ p, p < s.no → ∀ e ∈ (s.obj p).cache, t.res e.2 = s.res e.2)
    (hdat : ∀ p, p < s.no → (s.obj p).cache ≠ [] → t.ctrl (s.obj p).cp = s.ctrl (s.obj p).cp ∧
      t.kn (s.obj p).kn = s.kn (s.obj p).kn) : Inv ev t := by
  refine ⟨?_, ?_, ?_, ?_⟩
  · intro p hp
    rw [hno] at hp
    rw [hobj]; exact i.owner p hp
  · intro p hp e he
    rw [hno] at hp
    rw [hobj] at he
    have hne : (s.obj p).cache ≠ [] := by
      intro h
      rw [h] at he
      simp at he
    rw [hres p hp e he, i.cached p hp e he]
    unfold St.data
    rw [hobj, (hdat p hp hne).1, (hdat p hp hne).2]
  · intro p hp
    rw [hno] at hp
    rw [hobj]
    obtain ⟨h1, h2, h3⟩ := i.alloc p hp
    exact ⟨by omega, by omega, fun e he => by have := h3 e he; omega⟩
  · intro p q hp hq
    rw [hno] at hp hq
    rw [hobj]
    exact i.apart p q hp hq

theorem Inv.eval {ev : Dat C K → T → V} {s : St C K T V} (i : Inv ev s) (o : Nat) (ho : o < s.no)
    (t : T) : Inv ev (evaluate ev s o t).2 ∧
      (evaluate ev s o t).2.res (evaluate ev s o t).1 = ev (s.data o) t ∧
      (∀ p, (evaluate ev s o t).2.data p = s.data p) := by
  unfold evaluate
  cases hf : find t (s.obj o).cache with
  | some l =>
    have := find_mem t _ _ hf
    exact ⟨i, i.cached o ho _ this, fun p => rfl⟩
  | none =>
    dsimp only
    have hd : ∀ p, St.data { s with
        res := upd s.res s.nr (ev (s.data (s.obj o).owner) t)
        nr := s.nr + 1
        obj := upd s.obj o { s.obj o with cache := (t, s.nr) :: (s.obj o).cache } } p = s.data p := by
      intro p
      unfold St.data
      dsimp only
      by_cases c : p = o
      · rw [c, upd_same]
      · rw [upd_ne _ _ c]
    refine ⟨⟨?_, ?_, ?_, ?_⟩, ?_, hd⟩
    · intro p hp
      dsimp only at hp ⊢
      by_cases c : p = o
      · rw [c, upd_same]; exact i.owner o ho
      · rw [upd_ne _ _ c]; exact i.owner p hp
    · intro p hp e he
      rw [hd]
      dsimp only at hp he ⊢
      by_cases c : p = o
      · rw [c, upd_same] at he
        simp only [List.mem_cons] at he
        rcases he with rfl | he
        · rw [upd_same, i.owner o ho, c]
        · have := (i.alloc o ho).2.2 e he
          rw [upd_ne _ _ (Nat.ne_of_lt this), c]
          exact i.cached o ho e he
      · rw [upd_ne _ _ c] at he
        have := (i.alloc p hp).2.2 e he
        rw [upd_ne _ _ (Nat.ne_of_lt this)]
        exact i.cached p hp e he
    · intro p hp
      dsimp only at hp ⊢
      by_cases c : p = o
      · rw [c, upd_same]
        obtain ⟨h1, h2, h3⟩ := i.alloc o ho
        refine ⟨h1, h2, ?_⟩
        intro e he
        simp only [List.mem_cons] at he
        rcases he with rfl | he
        · exact Nat.lt_succ_self _
        · have := h3 e he; omega
      · rw [upd_ne _ _ c]
        obtain ⟨h1, h2, h3⟩ := i.alloc p hp
        exact ⟨h1, h2, fun e he => by have := h3 e he; omega⟩
    · intro p q hp hq hne
      dsimp only at hp hq ⊢
      have key : ∀ r, (upd s.obj o { s.obj o with cache := (t, s.nr) :: (s.obj o).cache } r).cp =
          (s.obj r).cp ∧ (upd s.obj o { s.obj o with cache := (t, s.nr) :: (s.obj o).cache } r).kn =
          (s.obj r).kn := by
        intro r
        by_cases c : r = o
        · rw [c, upd_same]; exact ⟨rfl, rfl⟩
        · rw [upd_ne _ _ c]; exact ⟨rfl, rfl⟩
      rw [(key p).1, (key p).2, (key q).1, (key q).2]
      exact i.apart p q hp hq hne
    · rw [upd_same, i.owner o ho]

theorem exec_inv {ev : Dat C K → T → V} {s : St C K T V} (i : Inv ev s) (c : Call C K T V)
    (hv : Valid s c) (hq : Quiet s c) : Inv ev (exec ev s c).2 := by
  have lt : ∀ o, o < s.no → (s.obj o).cp ≠ s.nc ∧ (s.obj o).kn ≠ s.nk := fun o ho =>
    ⟨Nat.ne_of_lt (i.alloc o ho).1, Nat.ne_of_lt (i.alloc o ho).2.1⟩
  cases c with
  | array c =>
    exact i.heap rfl rfl (Nat.le_succ _) (Nat.le_refl _) (Nat.le_refl _) (fun _ _ _ _ => rfl)
      (fun p hp _ => ⟨upd_ne _ _ (lt p hp).1, rfl⟩)
  | knotArray k =>
    exact i.heap rfl rfl (Nat.le_refl _) (Nat.le_succ _) (Nat.le_refl _) (fun _ _ _ _ => rfl)
      (fun p hp _ => ⟨rfl, upd_ne _ _ (lt p hp).2⟩)
  | create lc lk d p =>
    refine i.add ⟨s.nc, lk, d, p, s.no, []⟩ rfl rfl rfl rfl rfl rfl (Nat.le_succ _) (Nat.le_refl _)
      (Nat.lt_succ_self _) hv.2 (fun p hp => ⟨upd_ne _ _ (lt p hp).1, rfl⟩) ?_
    intro p hp
    exact ⟨(lt p hp).1, hq p hp⟩
  | eval o t => exact (i.eval o hv t).1
  | setCtrl o c =>
    have := i.alloc o hv
    refine i.change o { s.obj o with cp := s.nc, cache := [] } rfl rfl rfl (i.owner o hv) rfl rfl
      (Nat.le_succ _) (Nat.le_refl _) (Nat.lt_succ_self _) this.2.1
      (fun p hp _ => ⟨upd_ne _ _ (lt p hp).1, rfl⟩) ?_
    intro p hp hne
    exact ⟨(lt p hp).1, (i.apart p o hp hv hne).2⟩
  | setWeights o f =>
    have := i.alloc o hv
    refine i.change o { s.obj o with cache := [] } rfl rfl rfl (i.owner o hv) rfl rfl
      (Nat.le_refl _) (Nat.le_refl _) this.1 this.2.1
      (fun p hp hne => ⟨upd_ne _ _ (i.apart p o hp hv hne).1, rfl⟩) ?_
    intro p hp hne
    exact i.apart p o hp hv hne
  | setKnots o lk =>
    have := i.alloc o hv.1
    refine i.change o { s.obj o with kn := lk, cache := [] } rfl rfl rfl (i.owner o hv.1) rfl rfl
      (Nat.le_refl _) (Nat.le_refl _) this.1 hv.2 (fun p hp hne => ⟨rfl, rfl⟩) ?_
    intro p hp hne
    exact ⟨(i.apart p o hp hv.1 hne).1, hq p hp hne⟩
  | set o lc lk =>
    refine i.change o { s.obj o with cp := lc, kn := lk, cache := [] } rfl rfl rfl (i.owner o hv.1)
      rfl rfl (Nat.le_refl _) (Nat.le_refl _) hv.2.1 hv.2.2 (fun p hp hne => ⟨rfl, rfl⟩) ?_
    intro p hp hne
    exact hq p hp hne
  | setDegree o d =>
    have ha := i.alloc o hv
    rcases hq with hq | hq
    · exact i.change o { s.obj o with degree := d } rfl rfl hq (i.owner o hv) rfl rfl
        (Nat.le_refl _) (Nat.le_refl _) ha.1 ha.2.1 (fun p hp hne => ⟨rfl, rfl⟩)
        (fun p hp hne => i.apart p o hp hv hne)
    · have : (exec ev s (.setDegree o d)).2 = s := by
        simp only [exec, St.setObj]
        have : upd s.obj o { s.obj o with degree := d } = s.obj := by
          funext j
          by_cases c : j = o
          · rw [c, upd_same, hq]
          · rw [upd_ne _ _ c]
        rw [this]
      rw [this]
      exact i
  | normalize o f =>
    have := i.alloc o hv
    refine i.change o { s.obj o with cache := [] } rfl rfl rfl (i.owner o hv) rfl rfl
      (Nat.le_refl _) (Nat.le_refl _) this.1 this.2.1
      (fun p hp hne => ⟨rfl, upd_ne _ _ (i.apart p o hp hv hne).2⟩) ?_
    intro p hp hne
    exact i.apart p o hp hv hne
  | rebuild o c k p =>
    refine i.change o { s.obj o with cp := s.nc, kn := s.nk, periodic := p, cache := [] } rfl rfl rfl
      (i.owner o hv) rfl rfl (Nat.le_succ _) (Nat.le_succ _) (Nat.lt_succ_self _)
      (Nat.lt_succ_self _) (fun p hp _ => ⟨upd_ne _ _ (lt p hp).1, upd_ne _ _ (lt p hp).2⟩) ?_
    intro p hp hne
    exact lt p hp
  | copy o => exact hq.elim
  | deepcopy o =>
    refine i.add ⟨s.nc, s.nk, (s.obj o).degree, (s.obj o).periodic, s.no, []⟩ rfl rfl rfl rfl rfl rfl
      (Nat.le_succ _) (Nat.le_succ _) (Nat.lt_succ_self _) (Nat.lt_succ_self _)
      (fun p hp => ⟨upd_ne _ _ (lt p hp).1, upd_ne _ _ (lt p hp).2⟩) ?_
    intro p hp
    exact lt p hp
  | writeCtrl l f =>
    refine i.heap rfl rfl (Nat.le_refl _) (Nat.le_refl _) (Nat.le_refl _) (fun _ _ _ _ => rfl) ?_
    intro p hp hne
    exact ⟨upd_ne _ _ (fun h => hne (hq p hp h)), rfl⟩
  | writeKnots l f =>
    refine i.heap rfl rfl (Nat.le_refl _) (Nat.le_refl _) (Nat.le_refl _) (fun _ _ _ _ => rfl) ?_
    intro p hp hne
    exact ⟨rfl, upd_ne _ _ (fun h => hne (hq p hp h))⟩
  | writeRes l f =>
    refine i.heap rfl rfl (Nat.le_refl _) (Nat.le_refl _) (Nat.le_refl _) ?_ (fun _ _ _ => ⟨rfl, rfl⟩)
    intro p hp e he
    exact upd_ne _ _ (hq p hp e he)

theorem inv_empty (ev : Dat C K → T → V) (c : C) (k : K) (v : V) :
    Inv ev (empty c k v : St C K T V) := by
  refine ⟨?_, ?_, ?_, ?_⟩
  · intro o h; exact absurd h (Nat.not_lt_zero _)
  · intro o h; exact absurd h (Nat.not_lt_zero _)
  · intro o h; exact absurd h (Nat.not_lt_zero _)
  · intro o p h; exact absurd h (Nat.not_lt_zero _)

theorem reach_inv {ev : Dat C K → T → V} {c : C} {k : K} {v : V} {s : St C K T V}
    (h : Reach ev (empty c k v) s) : Inv ev s := by
  induction h with
  | start => exact inv_empty ev c k v
  | step c _ hv hq ih => exact exec_inv ih c hv hq

/-- After every quiet history `evaluate` returns the value of the current data of the curve.

`_partial`: not after `copy()`, a change of the degree, or writing into shared arrays and results:
`C37_copy_refuted`, `C37_degree_refuted`, `C37_view_refuted`, `C37_result_refuted`,
`C37_shared_refuted`. -/
theorem C37_cache_partial (ev : Dat C K → T → V) (c : C) (k : K) (v : V) {s : St C K T V}
    (h : Reach ev (empty c k v) s) (o : Nat) (ho : o < s.no) (t : T) :
    ∃ l, (exec ev s (.eval o t)).1 = some l ∧
      (exec ev s (.eval o t)).2.res l = ev (s.data o) t :=
  ⟨_, rfl, ((reach_inv h).eval o ho t).2.1⟩

/-- Evaluation changes the data of no curve, in any state. -/
theorem C37_pure (ev : Dat C K → T → V) (s : St C K T V) (o p : Nat) (t : T) :
    (exec ev s (.eval o t)).2.data p = s.data p := by
  simp only [exec, evaluate]
  cases find t (s.obj o).cache with
  | some l => rfl
  | none =>
    unfold St.data
    dsimp only
    by_cases c : p = o
    · rw [c, upd_same]
    · rw [upd_ne _ _ c]

/-- In a quiet history an edit has the stated effect on its curve, and none on others; a deep copy
starts with the data of the original. -/
theorem C37_edit (ev : Dat C K → T → V) (c0 : C) (k0 : K) (v0 : V) {s : St C K T V}
    (h : Reach ev (empty c0 k0 v0) s) (o : Nat) (ho : o < s.no) (c : C) (f : C → C) (k : K)
    (g : K → K) (b : Bool) (d : Nat) :
    (exec ev s (.setCtrl o c)).2.data o =
      ⟨(s.data o).degree, c, (s.data o).knots, (s.data o).periodic⟩ ∧
    (exec ev s (.setWeights o f)).2.data o =
      ⟨(s.data o).degree, f (s.data o).ctrl, (s.data o).knots, (s.data o).periodic⟩ ∧
    (exec ev s (.normalize o g)).2.data o =
      ⟨(s.data o).degree, (s.data o).ctrl, g (s.data o).knots, (s.data o).periodic⟩ ∧
    (exec ev s (.rebuild o c k b)).2.data o = ⟨(s.data o).degree, c, k, b⟩ ∧
    (exec ev s (.setDegree o d)).2.data o =
      ⟨d, (s.data o).ctrl, (s.data o).knots, (s.data o).periodic⟩ ∧
    (exec ev s (.deepcopy o)).2.data s.no = s.data o ∧
    ∀ e ∈ [Call.setCtrl o c, .setWeights o f, .normalize o g, .rebuild o c k b, .setDegree o d,
      .deepcopy o, .copy o], ∀ p, p < s.no → p ≠ o → (exec ev s e).2.data p = s.data p := by
  have i : Inv ev s := reach_inv h
  have lt : ∀ o, o < s.no → (s.obj o).cp ≠ s.nc ∧ (s.obj o).kn ≠ s.nk := fun o ho =>
    ⟨Nat.ne_of_lt (i.alloc o ho).1, Nat.ne_of_lt (i.alloc o ho).2.1⟩
  refine ⟨?_, ?_, ?_, ?_, ?_, ?_, ?_⟩
  · simp [exec, St.data, St.newCtrl, St.setObj, upd]
  · simp [exec, St.data, St.setObj, upd]
  · simp [exec, St.data, St.setObj, upd]
  · simp [exec, St.data, St.newCtrl, St.newKnots, St.setObj, upd]
  · simp [exec, St.data, St.setObj, upd]
  · simp [exec, St.data, copyWith, St.newCtrl, St.newKnots, St.newObj, upd]
  · intro e he p hp hne
    have ha := i.apart p o hp ho hne
    have hl := lt p hp
    have hno : p ≠ s.no := Nat.ne_of_lt hp
    simp only [List.mem_cons, List.not_mem_nil, or_false] at he
    rcases he with rfl | rfl | rfl | rfl | rfl | rfl | rfl <;>
      simp [exec, St.data, copyWith, St.newCtrl, St.newKnots, St.newObj, St.setObj, upd, hne, ha, hl,
        hno]

/-! ## Where the cache is wrong -/

/-- The location of a result and its value after a call of `evaluate`. -/
def value (ev : Dat C K → T → V) (s : St C K T V) (o : Nat) (t : T) : V :=
  (evaluate ev s o t).2.res (evaluate ev s o t).1

theorem find_head (t : T) (n : Nat) (l : List (T × Nat)) : find t ((t, n) :: l) = some n := if_pos rfl

/-- After an evaluation the parameter is in the cache. -/
theorem evaluate_find (ev : Dat C K → T → V) (s : St C K T V) (o : Nat) (t : T) :
    find t ((evaluate ev s o t).2.obj o).cache = some (evaluate ev s o t).1 := by
  unfold evaluate
  cases hf : find t (s.obj o).cache with
  | some l => exact hf
  | none =>
    dsimp only
    rw [upd_same]
    exact find_head _ _ _

theorem value_of_find (ev : Dat C K → T → V) (s : St C K T V) (o : Nat) (t : T) (l : Nat)
    (h : find t (s.obj o).cache = some l) : value ev s o t = s.res l := by
  simp only [value, evaluate, h]

/-- The degree of a curve can be assigned, but once the curve has been evaluated at `t`, the value
at `t` stays what it was, in every state and whatever the degree. -/
theorem C37_degree_refuted (ev : Dat C K → T → V) (s : St C K T V) (o d : Nat) (t : T) :
    value ev (exec ev (evaluate ev s o t).2 (.setDegree o d)).2 o t = value ev s o t := by
  apply value_of_find
  simp only [exec, St.setObj]
  rw [upd_same]
  exact evaluate_find ev s o t

/-- Writing into the array of control points (which `control_points` returns a view of) or the array
of knots leaves values already asked for as they were. -/
theorem C37_view_refuted (ev : Dat C K → T → V) (s : St C K T V) (o l : Nat) (t : T) (f : C → C)
    (g : K → K) :
    value ev (exec ev (evaluate ev s o t).2 (.writeCtrl l f)).2 o t = value ev s o t ∧
    value ev (exec ev (evaluate ev s o t).2 (.writeKnots l g)).2 o t = value ev s o t :=
  ⟨value_of_find ev _ o t _ (evaluate_find ev s o t), value_of_find ev _ o t _ (evaluate_find ev s o t)⟩

/-- Writing into a result changes what the curve returns next time at the same parameter. -/
theorem C37_result_refuted (ev : Dat C K → T → V) (s : St C K T V) (o : Nat) (t : T) (f : V → V) :
    value ev (exec ev (evaluate ev s o t).2 (.writeRes (evaluate ev s o t).1 f)).2 o t =
      f (value ev s o t) := by
  have h := value_of_find ev
    (exec ev (evaluate ev s o t).2 (.writeRes (evaluate ev s o t).1 f)).2 o t (evaluate ev s o t).1
    (evaluate_find ev s o t)
  rw [h]
  simp only [exec]
  rw [upd_same]
  rfl

/-- A curve made by `copy()` evaluates the original: whatever is assigned to the copy, its value is the
value of the data of the original. -/
theorem C37_copy_refuted (ev : Dat C K → T → V) (s : St C K T V) (o : Nat) (ho : o < s.no) (c : C)
    (t : T) :
    let s' := (exec ev (exec ev s (.copy o)).2 (.setCtrl s.no c)).2
    value ev s' s.no t = ev (s'.data o) t ∧ (s'.data s.no).ctrl = c := by
  have hne : o ≠ s.no := Nat.ne_of_lt ho
  simp [exec, value, evaluate, copyWith, St.newCtrl, St.newKnots, St.newObj, St.setObj, St.data, upd,
    find, hne]

/-- Two curves made with the same array of knots: normalising one changes the data of the other but not
the values the other has already returned. -/
theorem C37_shared_refuted (ev : Dat C K → T → V) (s : St C K T V) (o p : Nat) (hne : p ≠ o)
    (hk : (s.obj o).kn = (s.obj p).kn) (t : T) (g : K → K) :
    let s' := (exec ev (evaluate ev s o t).2 (.normalize p g)).2
    value ev s' o t = value ev s o t ∧ (s'.data o).knots = g (s.data o).knots := by
  refine ⟨?_, ?_⟩
  · have hf := evaluate_find ev s o t
    rw [value_of_find ev _ o t (evaluate ev s o t).1]
    · rfl
    · simp only [exec, St.setObj]
      rw [upd_ne _ _ hne.symm]
      exact hf
  · have hd := C37_pure ev s o o t
    have h1 : ∀ q, ((evaluate ev s o t).2.obj q).kn = (s.obj q).kn := by
      intro q
      unfold evaluate
      cases find t (s.obj o).cache with
      | some l => rfl
      | none =>
        dsimp only
        by_cases c : q = o
        · rw [c, upd_same]
        · rw [upd_ne _ _ c]
    have h2 : (evaluate ev s o t).2.kn = s.kn := by
      unfold evaluate
      cases find t (s.obj o).cache <;> rfl
    simp only [exec, St.setObj, St.data]
    rw [upd_ne _ _ hne.symm, h1, h1, h2, hk, upd_same]

/-! ## Examples: the value is degree + control "point" + knots -/

def evEx (d : Dat Nat Nat) (t : Nat) : Nat := d.degree + d.ctrl * t + d.knots

def s0 : St Nat Nat Nat Nat := empty 0 0 0

/-- Two arrays and a curve. -/
def s1 : St Nat Nat Nat Nat := run evEx s0 [.array 5, .knotArray 7, .create 0 0 3 false]

example : s1.no = 1 ∧ value evEx s1 0 2 = 20 := by decide
-- an edit is seen
example : value evEx (run evEx s1 [.eval 0 2, .setCtrl 0 6]) 0 2 = 22 := by decide
-- the degree is not
example : value evEx (run evEx s1 [.eval 0 2, .setDegree 0 2]) 0 2 = 20 ∧
    evEx ((run evEx s1 [.eval 0 2, .setDegree 0 2]).data 0) 2 = 19 := by decide
-- a copy that is edited still has the value of the original
example : value evEx (run evEx s1 [.copy 0, .setCtrl 1 100]) 1 2 = 20 ∧
    evEx ((run evEx s1 [.copy 0, .setCtrl 1 100]).data 1) 2 = 210 := by decide
example : value evEx (run evEx s1 [.deepcopy 0, .setCtrl 1 100]) 1 2 = 210 := by decide
-- the user's array of knots is the curve's array
example : value evEx (run evEx s1 [.writeKnots 0 (fun _ => 0)]) 0 2 = 13 ∧
    value evEx (run evEx s1 [.eval 0 2, .writeKnots 0 (fun _ => 0)]) 0 2 = 20 := by decide
-- a shared knot array
example : ((run evEx s1 [.create 0 0 2 false]).obj 0).kn = ((run evEx s1 [.create 0 0 2 false]).obj 1).kn := by
  decide

/-- A quiet history with an edit, a deep copy and evaluations. -/
example : Reach evEx s0 (run evEx s1 [.eval 0 2, .setCtrl 0 6, .deepcopy 0, .setWeights 1 (· + 1)]) := by
  refine .step (.setWeights 1 (· + 1)) (.step (.deepcopy 0) (.step (.setCtrl 0 6) (.step (.eval 0 2)
    (.step (.create 0 0 3 false) (.step (.knotArray 7) (.step (.array 5) .start trivial trivial)
    trivial trivial) ?_ ?_) ?_ trivial) ?_ trivial) ?_ trivial) ?_ trivial
  · exact ⟨by decide, by decide⟩
  · intro o h; exact absurd h (Nat.not_lt_zero o)
  all_goals show _ < _; decide

end Verif.NCache
