import Verif.Clp.Model
import Mathlib.Tactic.Set
import Mathlib.Tactic.SplitIfs
import Mathlib.Tactic.Push
import Mathlib.Data.List.Nodup
import Mathlib.Data.List.Rotate

/-!
# Rings of vertices: paths, insertion, search
-/

set_option linter.unusedSectionVars false
namespace Verif.Clp
open Verif.Poly
variable {K : Type} [Field K] [LinearOrder K]

theorem get_upd (h : Heap K) (a : Nat) (n : Node K) (x : Nat) : (h.upd a n) x = if x = a then n else h x := by
  unfold Heap.upd Heap.get
  by_cases hx : x = a
  · subst hx
    simp
  · have : (a == x) = false := by simpa using fun e => hx e.symm
    simp [List.find?_cons, this, hx]

/-- `Path h a l b`: following `next` from `a` one meets the vertices of `l` and then `b`, and `previous` leads back. -/
def Path (h : Heap K) : Nat → List Nat → Nat → Prop
  | a, [], b => (h a).next = b ∧ (h b).prev = a
  | a, x :: l, b => (h a).next = x ∧ (h x).prev = a ∧ Path h x l b

/-- `l` is the list of the vertices of a polygon with head `l[0]`. -/
def Ring (h : Heap K) : List Nat → Prop
  | [] => False
  | a :: l => (a :: l).Nodup ∧ Path h a l a

theorem path_append (h : Heap K) (x : Nat) (m : List Nat) (b : Nat) : ∀ (l : List Nat) (a : Nat),
    Path h a (l ++ x :: m) b ↔ Path h a l x ∧ Path h x m b
  | [], a => by simp [Path, and_assoc]
  | y :: l, a => by simp [Path, path_append h x m b l y, and_assoc]

theorem path_congr {h h' : Heap K} (b : Nat) : ∀ (l : List Nat) (a : Nat), (∀ x ∈ a :: l, (h' x).next = (h x).next) →
    (∀ x ∈ b :: l, (h' x).prev = (h x).prev) → Path h a l b → Path h' a l b
  | [], a, h1, h2, p => ⟨by rw [h1 a (by simp)]; exact p.1, by rw [h2 b (by simp)]; exact p.2⟩
  | x :: l, a, h1, h2, p => by
    refine ⟨by rw [h1 a (by simp)]; exact p.1, by rw [h2 x (by simp)]; exact p.2.1, ?_⟩
    refine path_congr b l x (fun y hy => h1 y (List.mem_cons_of_mem _ hy)) (fun y hy => h2 y ?_) p.2.2
    rcases List.mem_cons.mp hy with e | e <;> simp [e]

theorem ring_congr {h h' : Heap K} {l : List Nat} (e : ∀ x ∈ l, (h' x).next = (h x).next ∧ (h' x).prev = (h x).prev)
    (r : Ring h l) : Ring h' l := by
  cases l with
  | nil => exact r
  | cons a l => exact ⟨r.1, path_congr a l a (fun x hx => (e x hx).1) (fun x hx => (e x hx).2) r.2⟩

theorem path_prev_mem {h : Heap K} {b : Nat} : ∀ {l : List Nat} {a : Nat}, Path h a l b → (h b).prev ∈ a :: l
  | [], a, p => by rw [p.2]; simp
  | x :: l, a, p => List.mem_cons_of_mem _ (path_prev_mem p.2.2)

/-- Every vertex of a path has its successor in the path. -/
theorem path_next_mem {h : Heap K} {b : Nat} : ∀ {l : List Nat} {a : Nat}, Path h a l b → ∀ x ∈ a :: l, (h x).next ∈ l ++ [b]
  | [], a, p, x, hx => by
    simp only [List.mem_singleton] at hx
    subst hx; rw [p.1]; simp
  | y :: l, a, p, x, hx => by
    rcases List.mem_cons.mp hx with e | e
    · subst e; rw [p.1]; simp
    · exact List.mem_cons_of_mem _ (path_next_mem p.2.2 x e)

theorem path_prev_mem' {h : Heap K} {b : Nat} : ∀ {l : List Nat} {a : Nat}, Path h a l b → ∀ x ∈ l ++ [b], (h x).prev ∈ a :: l
  | [], a, p, x, hx => by
    simp only [List.nil_append, List.mem_singleton] at hx
    subst hx; rw [p.2]; simp
  | y :: l, a, p, x, hx => by
    rcases List.mem_cons.mp hx with e | e
    · subst e; rw [p.2.1]; simp
    · exact List.mem_cons_of_mem _ (path_prev_mem' p.2.2 x e)

/-- The head of a polygon may be any of its vertices. -/
theorem ring_rotate {h : Heap K} : ∀ {p q : List Nat}, Ring h (p ++ q) → q ≠ [] → Ring h (q ++ p)
  | [], q, r, _ => by simpa using r
  | a :: p, [], r, hq => absurd rfl hq
  | a :: p, b :: q, r, _ => by
    obtain ⟨nd, pa⟩ := r
    refine ⟨?_, ?_⟩
    · exact (List.perm_append_comm (l₁ := a :: p) (l₂ := b :: q)).nodup_iff.mp nd
    · have := (path_append h b q a p a).mp pa
      exact (path_append h a p b q b).mpr ⟨this.2, this.1⟩

/-- Only the links differ. -/
def Same (h h' : Heap K) : Prop := ∀ x, h' x = { h x with next := (h' x).next, prev := (h' x).prev }

theorem Same.refl (h : Heap K) : Same h h := fun _ => rfl
theorem Same.trans {h h' h'' : Heap K} (a : Same h h') (b : Same h' h'') : Same h h'' := fun x => by rw [b x, a x]

theorem setNext_next (h : Heap K) (a b x : Nat) : ((setNext h a b) x).next = if x = a then b else (h x).next := by
  rw [setNext, get_upd]; split_ifs <;> rfl
theorem setNext_prev (h : Heap K) (a b x : Nat) : ((setNext h a b) x).prev = (h x).prev := by
  rw [setNext, get_upd]; split_ifs with e
  · rw [e]
  · rfl
theorem setPrev_prev (h : Heap K) (a b x : Nat) : ((setPrev h a b) x).prev = if x = a then b else (h x).prev := by
  rw [setPrev, get_upd]; split_ifs <;> rfl
theorem setPrev_next (h : Heap K) (a b x : Nat) : ((setPrev h a b) x).next = (h x).next := by
  rw [setPrev, get_upd]; split_ifs with e
  · rw [e]
  · rfl
theorem setNext_same (h : Heap K) (a b : Nat) : Same h (setNext h a b) := fun x => by
  rw [setNext, get_upd]; split_ifs with e
  · rw [e]
  · rfl
theorem setPrev_same (h : Heap K) (a b : Nat) : Same h (setPrev h a b) := fun x => by
  rw [setPrev, get_upd]; split_ifs with e
  · rw [e]
  · rfl

/-- The effect of putting `v` before `c`. -/
structure Linked (h h' : Heap K) (v c : Nat) : Prop where
  next : ∀ x, (h' x).next = if x = (h c).prev then v else if x = v then c else (h x).next
  prev : ∀ x, (h' x).prev = if x = c then v else if x = v then (h c).prev else (h x).prev
  data : Same h h'

theorem link_linked (h : Heap K) {v c : Nat} : Linked h (link h v c) v c := by
  unfold link
  dsimp only
  rw [setNext_prev]
  refine ⟨fun x => ?_, fun x => ?_, ?_⟩
  · rw [setPrev_next, setNext_next, setPrev_next, setNext_next]
  · rw [setPrev_prev, setNext_prev, setPrev_prev, setNext_prev]
  · exact (setNext_same _ _ _).trans ((setPrev_same _ _ _).trans ((setNext_same _ _ _).trans (setPrev_same _ _ _)))

theorem add_linked (h : Heap K) {v n : Nat} (hvn : v ≠ n) : (add h (some n) v).2 = n ∧ Linked h (add h (some n) v).1 v n := by
  refine ⟨rfl, ?_⟩
  unfold add
  dsimp only
  refine ⟨fun x => ?_, fun x => ?_, ?_⟩
  · rw [setNext_next, setPrev_next, setNext_next, setPrev_next]
  · rw [setNext_prev, setPrev_prev, setNext_prev, setPrev_prev]
    by_cases h1 : x = v
    · rw [if_pos h1, if_neg (fun e => hvn (h1.symm.trans e)), if_pos h1]
    · rw [if_neg h1, if_neg h1]
  · exact (setPrev_same _ _ _).trans ((setNext_same _ _ _).trans ((setPrev_same _ _ _).trans (setNext_same _ _ _)))

theorem path_link {h h' : Heap K} {v c : Nat} (L : Linked h h' v c) (hvc : v ≠ c) : ∀ (l : List Nat) (a : Nat), Path h a l c →
    (a :: l).Nodup → c ∉ l → v ∉ a :: l → Path h' a (l ++ [v]) c
  | [], a, p, _, _, hv => by
    have hv' : ¬ v = a := by simpa using hv
    have hcv : ¬ c = v := fun e => hvc e.symm
    refine ⟨?_, ?_, ?_, ?_⟩
    · rw [L.next, if_pos p.2.symm]
    · rw [L.prev, if_neg hvc, if_pos rfl]; exact p.2
    · rw [L.next, p.2, if_neg hv', if_pos rfl]
    · rw [L.prev, if_pos rfl]
  | x :: l, a, p, nd, hc, hv => by
    have hpm := path_prev_mem p.2.2
    have ha : a ≠ (h c).prev := fun e => (List.nodup_cons.mp nd).1 (e ▸ hpm)
    have hav : a ≠ v := fun e => hv (by simp [e])
    have hxc : x ≠ c := fun e => hc (by simp [e])
    have hxv : x ≠ v := fun e => hv (by simp [e])
    refine ⟨?_, ?_, path_link L hvc l x p.2.2 (List.nodup_cons.mp nd).2 (fun e => hc (by simp [e])) (fun e => hv (List.mem_cons_of_mem _ e))⟩
    · rw [L.next, if_neg ha, if_neg hav]; exact p.1
    · rw [L.prev, if_neg hxc, if_neg hxv]; exact p.2.1

/-- Putting a new vertex between two consecutive vertices of a ring. -/
theorem ring_link {h h' : Heap K} {v c a : Nat} {l R : List Nat} (r : Ring h (a :: (l ++ c :: R))) (hv : v ∉ a :: (l ++ c :: R))
    (L : Linked h h' v c) : Ring h' (a :: (l ++ v :: c :: R)) := by
  obtain ⟨nd, p⟩ := r
  obtain ⟨p1, p2⟩ := (path_append h c R a l a).mp p
  have hvc : v ≠ c := fun e => hv (by simp [e])
  have nd' : (a :: l).Nodup ∧ (c :: R).Nodup ∧ (a :: l).Disjoint (c :: R) := by
    have : ((a :: l) ++ (c :: R)).Nodup := by simpa using nd
    exact List.nodup_append'.mp this
  refine ⟨?_, ?_⟩
  · have hp : (a :: (l ++ v :: c :: R)).Perm (v :: (a :: (l ++ c :: R))) := by
      have := List.perm_middle (a := v) (l₁ := a :: l) (l₂ := c :: R)
      simpa using this
    exact hp.nodup_iff.mpr (List.nodup_cons.mpr ⟨hv, nd⟩)
  · have q1 : Path h' a (l ++ [v]) c :=
      path_link L hvc l a p1 nd'.1 (fun e => nd'.2.2 (List.mem_cons_of_mem _ e) (by simp)) (fun e => hv (by
        rcases List.mem_cons.mp e with e | e <;> simp [e]))
    have hpm := path_prev_mem p1
    have q2 : Path h' c R a := by
      refine path_congr a R c (fun x hx => ?_) (fun x hx => ?_) p2
      · rw [L.next, if_neg, if_neg]
        · intro e; subst e; exact hv (List.mem_cons_of_mem _ (List.mem_append_right _ hx))
        · intro e; subst e; exact nd'.2.2 hpm hx
      · rw [L.prev, if_neg, if_neg]
        · intro e; subst e
          rcases List.mem_cons.mp hx with e | e
          · exact hv (by simp [e])
          · exact hv (by simp [e])
        · intro e; subst e
          rcases List.mem_cons.mp hx with e | e
          · subst e; exact nd'.2.2 (by simp) (by simp : x ∈ x :: R)
          · exact (List.nodup_cons.mp nd'.2.1).1 e
    have := (path_append h' c R a (l ++ [v]) a).mpr ⟨q1, q2⟩
    simpa using this

/-- Putting a new vertex at the end of a ring. -/
theorem ring_add {h h' : Heap K} {v a : Nat} {l : List Nat} (r : Ring h (a :: l)) (hv : v ∉ a :: l) (L : Linked h h' v a) :
    Ring h' (a :: (l ++ [v])) := by
  obtain ⟨nd, p⟩ := r
  refine ⟨?_, path_link L (fun e => hv (by simp [e])) l a p nd (List.nodup_cons.mp nd).1 hv⟩
  have hp : (a :: (l ++ [v])).Perm (v :: (a :: l)) := by
    have := List.perm_append_singleton v (a :: l)
    simpa using this
  exact hp.nodup_iff.mpr (List.nodup_cons.mpr ⟨hv, nd⟩)

/-- `Polygon.next` from any vertex up to the end of an edge. -/
theorem nextPlain_spec {h : Heap K} {e : Nat} (he : (h e).inter = false) : ∀ (B : List Nat) (a : Nat), Path h a B e →
    (∀ x ∈ B, (h x).inter = true) → ∀ f, B.length < f → nextPlain h f (h a).next = some e
  | [], a, p, _, f, hf => by
    obtain ⟨f, rfl⟩ : ∃ k, f = k + 1 := ⟨f - 1, by simp at hf; omega⟩
    rw [nextPlain, p.1, if_neg (by simp [he])]
  | x :: B, a, p, hB, f, hf => by
    obtain ⟨f, rfl⟩ : ∃ k, f = k + 1 := ⟨f - 1, by simp at hf; omega⟩
    rw [nextPlain, p.1, if_pos (hB x (by simp))]
    exact nextPlain_spec he B x p.2.2 (fun y hy => hB y (List.mem_cons_of_mem _ hy)) f (by simp at hf; omega)

/-- The search of `insert` stops before the first vertex whose `alpha` is not smaller. -/
theorem seek_spec {h : Heap K} {a : K} {e : Nat} : ∀ (B : List Nat) (s : Nat), Path h s B e → e ∉ s :: B →
    ∃ B1 B2 c, s :: B = B1 ++ B2 ∧ (B2 ++ [e]).head? = some c ∧ (∀ x ∈ B1, (h x).alpha < a) ∧ (∀ y ∈ B2.head?, a ≤ (h y).alpha) ∧
      ∀ f, B.length + 1 < f → seek h a e f s = some c
  | [], s, p, he => by
    have hse : s ≠ e := fun h => he (by simp [h])
    by_cases ha : (h s).alpha < a
    · refine ⟨[s], [], e, rfl, rfl, by simpa using ha, by simp, fun f hf => ?_⟩
      obtain ⟨f, rfl⟩ : ∃ k, f = k + 2 := ⟨f - 2, by simp at hf; omega⟩
      rw [seek, if_pos ⟨hse, ha⟩, p.1, seek, if_neg (by simp)]
    · refine ⟨[], [s], s, rfl, rfl, by simp, by simpa using not_lt.mp ha, fun f hf => ?_⟩
      obtain ⟨f, rfl⟩ : ∃ k, f = k + 2 := ⟨f - 2, by simp at hf; omega⟩
      rw [seek, if_neg (by simp [ha])]
  | x :: B, s, p, he => by
    have hse : s ≠ e := fun h => he (by simp [h])
    by_cases ha : (h s).alpha < a
    · obtain ⟨B1, B2, c, e1, e2, e3, e4, e5⟩ := seek_spec (a := a) B x p.2.2 (fun hx => he (List.mem_cons_of_mem _ hx))
      refine ⟨s :: B1, B2, c, by rw [e1]; rfl, e2, ?_, e4, fun f hf => ?_⟩
      · intro y hy
        rcases List.mem_cons.mp hy with hy | hy
        · subst hy; exact ha
        · exact e3 y hy
      · obtain ⟨f, rfl⟩ : ∃ k, f = k + 1 := ⟨f - 1, by simp at hf; omega⟩
        rw [seek, if_pos ⟨hse, ha⟩, p.1]; exact e5 f (by simp at hf; omega)
    · refine ⟨[], s :: x :: B, s, rfl, rfl, by simp, by simpa using not_lt.mp ha, fun f hf => ?_⟩
      obtain ⟨f, rfl⟩ : ∃ k, f = k + 1 := ⟨f - 1, by simp at hf; omega⟩
      rw [seek, if_neg (by simp [ha])]

end Verif.Clp
