import Verif.Apc.Model
import Mathlib.Tactic.Ring
import Mathlib.Tactic.Linarith
import Mathlib.Tactic.FieldSimp
import Mathlib.Tactic.LinearCombination
import Mathlib.Tactic.NormNum
import Mathlib.Algebra.Order.Ring.Rat

/-! # Properties of circles of the API -/

set_option linter.unusedSectionVars false

namespace Verif.Apc

open Verif.Vec (V3)
open Verif.Vec.V3

variable {K : Type} [Field K] [LinearOrder K] [IsStrictOrderedRing K]

/-! ## C303: the circle through three points -/

/-- The circle with center `(x, y)` and radius `r` passes through `(a, b)`. -/
def OnCircle (x y r a b : K) : Prop := (a - x) ^ 2 + (b - y) ^ 2 = r ^ 2

/-- Nothing is returned exactly for points on a line. -/
theorem C303_none (sqrt : K → K) (x1 y1 x2 y2 x3 y3 : K) :
    circle3pt sqrt x1 y1 x2 y2 x3 y3 = none ↔ (x2 - x1) * (y3 - y1) = (y2 - y1) * (x3 - x1) := by
  have e : area2 x1 y1 x2 y2 x3 y3 = (x2 - x1) * (y3 - y1) - (y2 - y1) * (x3 - x1) := by unfold area2; ring
  unfold circle3pt
  simp only [e]
  constructor
  · intro h
    by_contra hc
    rw [if_neg (sub_ne_zero.2 hc)] at h
    exact absurd h (by simp)
  · intro h
    rw [if_pos (sub_eq_zero.2 h)]

/-- Otherwise the circle passes through the three points. -/
theorem C303_through {sqrt : K → K} (hs : ∀ x, 0 ≤ x → sqrt x * sqrt x = x) (x1 y1 x2 y2 x3 y3 : K)
    {x y r : K} (h : circle3pt sqrt x1 y1 x2 y2 x3 y3 = some (x, y, r)) :
    0 ≤ r ∧ OnCircle x y r x1 y1 ∧ OnCircle x y r x2 y2 ∧ OnCircle x y r x3 y3 := by
  unfold circle3pt at h
  by_cases hd : area2 x1 y1 x2 y2 x3 y3 = 0
  · simp [hd] at h
  simp only [hd, if_false, Option.some.injEq, Prod.mk.injEq] at h
  obtain ⟨hx, hy, hr⟩ := h
  set q := (x1 ^ 2 - 2 * x1 * x2 + x2 ^ 2 + y1 ^ 2 - 2 * y1 * y2 + y2 ^ 2)
      * (x1 ^ 2 - 2 * x1 * x3 + x3 ^ 2 + y1 ^ 2 - 2 * y1 * y3 + y3 ^ 2)
      * (x2 ^ 2 - 2 * x2 * x3 + x3 ^ 2 + y2 ^ 2 - 2 * y2 * y3 + y3 ^ 2) with hq
  have hq0 : 0 ≤ q := by
    have e : q = ((x1 - x2) ^ 2 + (y1 - y2) ^ 2) * ((x1 - x3) ^ 2 + (y1 - y3) ^ 2) * ((x2 - x3) ^ 2 + (y2 - y3) ^ 2) := by
      rw [hq]; ring
    rw [e]
    exact mul_nonneg (mul_nonneg (add_nonneg (sq_nonneg _) (sq_nonneg _)) (add_nonneg (sq_nonneg _) (sq_nonneg _)))
      (add_nonneg (sq_nonneg _) (sq_nonneg _))
  have hr2 : r ^ 2 = q / (4 * area2 x1 y1 x2 y2 x3 y3 ^ 2) := by
    have hsq := hs q hq0
    have e : r ^ 2 = (1 / 2 * sqrt q / area2 x1 y1 x2 y2 x3 y3) ^ 2 := by
      rw [← hr]
      rcases max_choice (1 / 2 * sqrt q / area2 x1 y1 x2 y2 x3 y3) (-(1 / 2 * sqrt q / area2 x1 y1 x2 y2 x3 y3)) with e | e
      · rw [e]
      · rw [e]; ring
    rw [e]
    field_simp
    linear_combination hsq * 4
  refine ⟨?_, ?_, ?_, ?_⟩
  · rw [← hr]
    rcases le_total 0 (1 / 2 * sqrt q / area2 x1 y1 x2 y2 x3 y3) with h | h
    · exact le_trans h (le_max_left _ _)
    · exact le_trans (neg_nonneg.2 h) (le_max_right _ _)
  all_goals
    unfold OnCircle
    rw [hr2, ← hx, ← hy, hq]
    field_simp
    unfold area2
    ring

/-- It is the only one. -/
theorem C303_unique {sqrt : K → K} (hs : ∀ x, 0 ≤ x → sqrt x * sqrt x = x) (x1 y1 x2 y2 x3 y3 : K)
    (hn : (x2 - x1) * (y3 - y1) ≠ (y2 - y1) * (x3 - x1)) {x y r : K} (hr : 0 ≤ r)
    (h1 : OnCircle x y r x1 y1) (h2 : OnCircle x y r x2 y2) (h3 : OnCircle x y r x3 y3) :
    circle3pt sqrt x1 y1 x2 y2 x3 y3 = some (x, y, r) := by
  rcases e : circle3pt sqrt x1 y1 x2 y2 x3 y3 with _ | ⟨x', y', r'⟩
  · exact absurd ((C303_none ..).1 e) hn
  obtain ⟨hr', g1, g2, g3⟩ := C303_through hs _ _ _ _ _ _ e
  unfold OnCircle at *
  have a1 : (x' - x) * (x2 - x1) + (y' - y) * (y2 - y1) = 0 := by linear_combination (1/2) * (h2 - h1) - (1/2) * (g2 - g1)
  have a2 : (x' - x) * (x3 - x1) + (y' - y) * (y3 - y1) = 0 := by linear_combination (1/2) * (h3 - h1) - (1/2) * (g3 - g1)
  have hD : (x2 - x1) * (y3 - y1) - (y2 - y1) * (x3 - x1) ≠ 0 := sub_ne_zero.2 hn
  have bx : x' = x := by
    have : ((x2 - x1) * (y3 - y1) - (y2 - y1) * (x3 - x1)) * (x' - x) = 0 := by
      linear_combination (y3 - y1) * a1 - (y2 - y1) * a2
    rcases mul_eq_zero.1 this with h | h
    · exact absurd h hD
    · linear_combination h
  have by' : y' = y := by
    have : ((x2 - x1) * (y3 - y1) - (y2 - y1) * (x3 - x1)) * (y' - y) = 0 := by
      linear_combination (x2 - x1) * a2 - (x3 - x1) * a1
    rcases mul_eq_zero.1 this with h | h
    · exact absurd h hD
    · linear_combination h
  have br : r' = r := by
    have : r' ^ 2 = r ^ 2 := by rw [← g1, ← h1, bx, by']
    exact (pow_left_inj₀ hr' hr (by norm_num)).1 this
  rw [bx, by', br]

/-- The circle of radius 5 about `(1, 2)` through three of its points, given in either orientation. -/
example : OnCircle (1 : ℚ) 2 5 4 6 ∧ OnCircle (1 : ℚ) 2 5 (-2) 6 ∧ OnCircle (1 : ℚ) 2 5 1 (-3) := by
  unfold OnCircle; norm_num
/-- Points `(4,6)`, `(-2,6)`, `(1,-3)`: the product of the squared distances is `36 · 90 · 90 = 540²`. -/
example : circle3pt (K := ℚ) (fun x => if x = 291600 then 540 else 0) 4 6 (-2) 6 1 (-3) = some (1, 2, 5) ∧
    circle3pt (K := ℚ) (fun x => if x = 291600 then 540 else 0) 1 (-3) (-2) 6 4 6 = some (1, 2, 5) := by decide +kernel

/-! ## C306: points of a `Circle2D` -/

/-- A circle about the origin has its points at its radius. -/
theorem C306_origin_partial (k : Circle2 K) (hx : k.cx = 0) (hy : k.cy = 0) (c s : K) (h : c ^ 2 + s ^ 2 = 1) :
    OnCircle k.cx k.cy k.r (k.eval c s).x (k.eval c s).y := by
  unfold OnCircle Circle2.eval
  rw [hx, hy]
  linear_combination k.r ^ 2 * h

/-- With any other center, of two opposite parameters at least one gives a point that is not on the circle. -/
theorem C306_center_refuted (k : Circle2 K) (hc : k.cx ≠ 0 ∨ k.cy ≠ 0) (c s : K) (h : c ^ 2 + s ^ 2 = 1) :
    ¬ (OnCircle k.cx k.cy k.r (k.eval c s).x (k.eval c s).y ∧
      OnCircle k.cx k.cy k.r (k.eval (-c) (-s)).x (k.eval (-c) (-s)).y) := by
  rintro ⟨h1, h2⟩
  unfold OnCircle Circle2.eval at *
  have e : k.cx ^ 2 + k.cy ^ 2 = 0 := by
    simp only at h1 h2
    linear_combination (1/2) * h1 + (1/2) * h2 - k.r ^ 2 * h
  have hx : k.cx ^ 2 = 0 := le_antisymm (by linarith [sq_nonneg k.cy]) (sq_nonneg _)
  have hy : k.cy ^ 2 = 0 := le_antisymm (by linarith [sq_nonneg k.cx]) (sq_nonneg _)
  rcases hc with hc | hc
  · exact hc (pow_eq_zero_iff (by norm_num) |>.1 hx)
  · exact hc (pow_eq_zero_iff (by norm_num) |>.1 hy)

example : (⟨3, 4, 5⟩ : Circle2 ℚ).eval 1 0 = ⟨5, 0, 0⟩ ∧ ¬ OnCircle (3 : ℚ) 4 5 5 0 := by
  refine ⟨by decide +kernel, ?_⟩
  unfold OnCircle; norm_num

/-! ## C304: a circle in space and its center -/

/-- All objects refer to addresses in use. -/
def WF (h : Heap K) : Prop := ∀ q, h.obj q < h.next

theorem wf_new {h : Heap K} (w : WF h) (o : Nat) (r : K) (p : Option (V3 K × V3 K × V3 K × V3 K)) : WF (newCircle h o r p).1 := by
  intro q
  simp only [newCircle, Heap.rebind, Heap.alloc]
  split_ifs
  · omega
  · have := w q; omega

/-- What is done between two evaluations: writing through some vector object, or giving the circle a new center. -/
inductive Op (K : Type)
  | put (o : Nat) (v : V3 K)
  | center (o : Nat)

def step (h : Heap K) (k : Circle K) : Op K → Heap K × Circle K
  | .put o v => (h.put o v, k)
  | .center o => k.setCenter h o

def run (h : Heap K) (k : Circle K) : List (Op K) → Heap K × Circle K
  | [] => (h, k)
  | op :: ops => let r := step h k op; run r.1 r.2 ops

/-- The center object refers to the first row and no object to the axes, which are `X` and `Y`. -/
structure Inv (h : Heap K) (k : Circle K) (X Y N : V3 K) : Prop where
  link : h.obj k.center = k.plane
  free : ∀ q, h.obj q ≠ k.plane + 1 ∧ h.obj q ≠ k.plane + 2 ∧ h.obj q ≠ k.plane + 3
  x : h.arr (k.plane + 1) = X
  y : h.arr (k.plane + 2) = Y
  n : h.arr (k.plane + 3) = N

theorem inv_step {h : Heap K} {k : Circle K} {X Y N : V3 K} (i : Inv h k X Y N) (op : Op K) :
    Inv (step h k op).1 (step h k op).2 X Y N ∧ (step h k op).2.r = k.r ∧ (step h k op).2.plane = k.plane := by
  cases op with
  | put o v =>
    obtain ⟨a, b, c⟩ := i.free o
    refine ⟨⟨i.link, i.free, ?_, ?_, ?_⟩, rfl, rfl⟩
    · simp only [step, Heap.put]; rw [if_neg (Ne.symm a)]; exact i.x
    · simp only [step, Heap.put]; rw [if_neg (Ne.symm b)]; exact i.y
    · simp only [step, Heap.put]; rw [if_neg (Ne.symm c)]; exact i.n
  | center o =>
    refine ⟨⟨?_, ?_, ?_, ?_, ?_⟩, rfl, rfl⟩
    · simp [step, Circle.setCenter, Heap.rebind]
    · intro q
      simp only [step, Circle.setCenter, Heap.rebind]
      split_ifs
      · omega
      · exact i.free q
    · simp only [step, Circle.setCenter, Heap.rebind]; rw [if_neg (by omega)]; exact i.x
    · simp only [step, Circle.setCenter, Heap.rebind]; rw [if_neg (by omega)]; exact i.y
    · simp only [step, Circle.setCenter, Heap.rebind]; rw [if_neg (by omega)]; exact i.n

theorem inv_run {h : Heap K} {k : Circle K} {X Y N : V3 K} (i : Inv h k X Y N) (ops : List (Op K)) :
    Inv (run h k ops).1 (run h k ops).2 X Y N ∧ (run h k ops).2.r = k.r := by
  induction ops generalizing h k with
  | nil => exact ⟨i, rfl⟩
  | cons op ops ih =>
    obtain ⟨j, hr, _⟩ := inv_step i op
    obtain ⟨a, b⟩ := ih j
    exact ⟨a, b.trans hr⟩

theorem inv_new {h : Heap K} (w : WF h) (o : Nat) (r : K) (p : Option (V3 K × V3 K × V3 K × V3 K)) :
    Inv (newCircle h o r p).1 (newCircle h o r p).2 (p.getD (h.get o, ⟨1, 0, 0⟩, ⟨0, 1, 0⟩, ⟨0, 0, 1⟩)).2.1
      (p.getD (h.get o, ⟨1, 0, 0⟩, ⟨0, 1, 0⟩, ⟨0, 0, 1⟩)).2.2.1 (p.getD (h.get o, ⟨1, 0, 0⟩, ⟨0, 1, 0⟩, ⟨0, 0, 1⟩)).2.2.2 := by
  refine ⟨?_, ?_, ?_, ?_, ?_⟩
  · simp [newCircle, Heap.rebind]
  · intro q
    have := w q
    simp only [newCircle, Heap.rebind, Heap.alloc]
    split_ifs <;> omega
  all_goals simp [newCircle, Heap.rebind, Heap.alloc]

/-- After any history of changes of the center, in place or by assignment, and of any other vector objects, the points of a circle
are at the radius from the center it shows, in the plane of its axes. -/
theorem C304_history_partial {h : Heap K} (w : WF h) (o : Nat) (r : K) (p : Option (V3 K × V3 K × V3 K × V3 K)) (ops : List (Op K))
    {X Y N : V3 K} (hp : (p.getD (h.get o, ⟨1, 0, 0⟩, ⟨0, 1, 0⟩, ⟨0, 0, 1⟩)).2 = (X, Y, N))
    (hX : dot X X = 1) (hY : dot Y Y = 1) (hXY : dot X Y = 0) (hN : dot X N = 0 ∧ dot Y N = 0) (c s : K) (hcs : c ^ 2 + s ^ 2 = 1) :
    let e := run (newCircle h o r p).1 (newCircle h o r p).2 ops
    let d := sub (e.2.eval e.1 c s) (e.2.getCenter e.1)
    dot d d = r ^ 2 ∧ dot d N = 0 ∧ dot d X = r * c ∧ dot d Y = r * s := by
  obtain ⟨i, hr⟩ := inv_run (inv_new w o r p) ops
  rw [hp] at i
  intro e d
  have hd : d = add (smul (r * c) X) (smul (r * s) Y) := by
    have hr' : e.2.r = r := hr
    have hl : e.1.obj e.2.center = e.2.plane := i.link
    have hx : e.1.arr (e.2.plane + 1) = X := i.x
    have hy : e.1.arr (e.2.plane + 2) = Y := i.y
    show sub (e.2.eval e.1 c s) (e.2.getCenter e.1) = _
    unfold Circle.eval Circle.getCenter Heap.get
    rw [hl, hx, hy, hr']
    ext <;> simp only [sub, add, smul] <;> ring
  rw [hd]
  unfold dot at *
  simp only [add, smul]
  refine ⟨?_, ?_, ?_, ?_⟩
  · linear_combination (r * c) ^ 2 * hX + (r * s) ^ 2 * hY + 2 * (r * c) * (r * s) * hXY + r ^ 2 * hcs
  · linear_combination (r * c) * hN.1 + (r * s) * hN.2
  · linear_combination (r * c) * hX + (r * s) * hXY
  · linear_combination (r * s) * hY + (r * c) * hXY

/-- A heap with two points, one of which becomes the center of a circle and is then moved. -/
example :
    let h : Heap ℚ := ⟨fun a => if a = 0 then ⟨1, 2, 3⟩ else ⟨0, 0, 0⟩, fun q => if q = 0 then 0 else 1, 2⟩
    let e := run (newCircle h 0 5 none).1 (newCircle h 0 5 none).2 [.put 0 ⟨4, 4, 4⟩, .center 1, .put 1 ⟨7, 7, 7⟩]
    e.2.eval e.1 1 0 = ⟨12, 7, 7⟩ ∧ e.2.getCenter e.1 = ⟨7, 7, 7⟩ := by decide +kernel
example : WF (⟨fun a => if a = 0 then ⟨1, 2, 3⟩ else ⟨0, 0, 0⟩, fun q => if q = 0 then 0 else 1, 2⟩ : Heap ℚ) := by
  intro q; simp only; split_ifs <;> omega

/-- Two circles made with one point as center: moving the point moves the second circle, but of the first only the center it shows. -/
theorem C304_shared_refuted {h : Heap K} (w : WF h) (o : Nat) (r r' : K) (v : V3 K) (c s : K) :
    let a := newCircle h o r none
    let b := newCircle a.1 o r' none
    let h3 := b.1.put o v
    a.2.getCenter h3 = v ∧ a.2.eval h3 c s = a.2.eval a.1 c s ∧ b.2.getCenter h3 = v ∧
      (h.get o ≠ v → sub (a.2.eval h3 c s) (a.2.getCenter h3) ≠ sub (a.2.eval a.1 c s) (a.2.getCenter a.1)) := by
  have w1 := wf_new w o r none
  intro a b h3
  have e1 : a.2.getCenter h3 = v := by
    simp [h3, b, a, Circle.getCenter, Heap.get, Heap.put, newCircle, Heap.rebind]
  have e2 : a.2.eval h3 c s = a.2.eval a.1 c s := by
    have hn : a.1.next = a.2.plane + 4 := by simp [a, newCircle, Heap.rebind, Heap.alloc]
    have key : ∀ i, i < 4 → h3.arr (a.2.plane + i) = a.1.arr (a.2.plane + i) := by
      intro i hi
      have e : h3.arr (a.2.plane + i) = (a.1.alloc ((none : Option (V3 K × V3 K × V3 K × V3 K)).getD (a.1.get o, ⟨1, 0, 0⟩, ⟨0, 1, 0⟩, ⟨0, 0, 1⟩))).arr (a.2.plane + i) := by
        simp only [h3, b, newCircle, Heap.put, Heap.rebind, if_true]
        rw [if_neg (by omega)]
      rw [e]
      simp only [Heap.alloc]
      rw [if_neg (by omega), if_neg (by omega), if_neg (by omega), if_neg (by omega)]
    unfold Circle.eval
    rw [show a.2.plane = a.2.plane + 0 from rfl, key 0 (by omega)]
    simp only [Nat.add_zero]
    rw [key 1 (by omega), key 2 (by omega), key 3 (by omega)]
  have e3 : b.2.getCenter h3 = v := by
    simp [h3, b, Circle.getCenter, Heap.get, Heap.put, newCircle, Heap.rebind]
  refine ⟨e1, e2, e3, fun hv he => hv ?_⟩
  rw [e1, e2] at he
  have ec : a.2.getCenter a.1 = h.get o := by
    simp [a, Circle.getCenter, Heap.get, newCircle, Heap.rebind, Heap.alloc]
  rw [ec] at he
  have hx := congrArg V3.x he; have hy := congrArg V3.y he; have hz := congrArg V3.z he
  simp only [sub] at hx hy hz
  ext
  · linarith
  · linarith
  · linarith

theorem alloc_new (h : Heap K) (f : Nat → V3 K) (i : Nat) (hi : i < 4) :
    (h.alloc (f 0, f 1, f 2, f 3)).arr (h.next + i) = f i := by
  have : i = 0 ∨ i = 1 ∨ i = 2 ∨ i = 3 := by omega
  rcases this with rfl | rfl | rfl | rfl <;> simp [Heap.alloc]

theorem alloc_old (h : Heap K) (p : V3 K × V3 K × V3 K × V3 K) (a : Nat) (ha : a < h.next) : (h.alloc p).arr a = h.arr a := by
  simp only [Heap.alloc]
  rw [if_neg (by omega), if_neg (by omega), if_neg (by omega), if_neg (by omega)]

theorem copy_rows (h : Heap K) (k : Circle K) (hk : k.plane + 3 < h.next) (o i : Nat) (hi : i < 4) :
    (k.copy h o).1.arr ((k.copy h o).2.plane + i) = h.arr (k.plane + i) := by
  let h1 : Heap K := { h with
    arr := fun a => if a = h.next then h.get k.center else h.arr a
    obj := fun q => if q = o then h.next else h.obj q
    next := h.next + 1 }
  have e : (k.copy h o).1.arr ((k.copy h o).2.plane + i) = (newCircle h1 o k.r none).1.arr (k.plane + i) :=
    alloc_new (newCircle h1 o k.r none).1 (fun i => (newCircle h1 o k.r none).1.arr (k.plane + i)) i hi
  rw [e]
  have e2 : (newCircle h1 o k.r none).1.arr (k.plane + i) = h1.arr (k.plane + i) :=
    alloc_old h1 _ _ (by show k.plane + i < h.next + 1; omega)
  rw [e2]
  show (if k.plane + i = h.next then h.get k.center else h.arr (k.plane + i)) = _
  rw [if_neg (by omega)]

theorem copy_center (h : Heap K) (k : Circle K) (o : Nat) : (k.copy h o).1.obj (k.copy h o).2.center < (k.copy h o).2.plane := by
  simp [Circle.copy, newCircle, Heap.alloc, Heap.rebind]

/-- The center of a copy is not connected with it: writing through it changes what is shown and not the points. -/
theorem C304_copy_refuted {h : Heap K} (w : WF h) (k : Circle K) (hk : k.plane + 3 < h.next) (o : Nat) (v : V3 K) (c s : K) :
    let a := k.copy h o
    let h' := a.1.put a.2.center v
    a.2.eval a.1 c s = k.eval h c s ∧ a.2.getCenter h' = v ∧ a.2.eval h' c s = a.2.eval a.1 c s := by
  intro a h'
  have key : ∀ i, i < 4 → a.1.arr (a.2.plane + i) = h.arr (k.plane + i) ∧ h'.arr (a.2.plane + i) = h.arr (k.plane + i) := by
    intro i hi
    have e : a.1.arr (a.2.plane + i) = h.arr (k.plane + i) := copy_rows h k hk o i hi
    refine ⟨e, ?_⟩
    rw [← e]
    have ho : a.1.obj a.2.center < a.2.plane := copy_center h k o
    show (if a.2.plane + i = a.1.obj a.2.center then v else a.1.arr (a.2.plane + i)) = _
    rw [if_neg (by omega)]
  refine ⟨?_, ?_, ?_⟩
  · unfold Circle.eval
    have k0 := (key 0 (by omega)).1
    simp only [Nat.add_zero] at k0
    rw [k0, (key 1 (by omega)).1, (key 2 (by omega)).1, (key 3 (by omega)).1]
    rfl
  · simp [Circle.getCenter, Heap.get, h', Heap.put]
  · unfold Circle.eval
    have k0 := key 0 (by omega)
    simp only [Nat.add_zero] at k0
    rw [k0.1, k0.2, (key 1 (by omega)).1, (key 2 (by omega)).1, (key 3 (by omega)).1, (key 1 (by omega)).2, (key 2 (by omega)).2,
      (key 3 (by omega)).2]

/-- The point given as center together with a plane is moved to the origin of the plane; where it was has no influence. -/
theorem C304_argument_refuted (h : Heap K) (o : Nat) (r : K) (p : V3 K × V3 K × V3 K × V3 K) :
    (newCircle h o r (some p)).1.get o = p.1 ∧
      ∀ c s, (newCircle h o r (some p)).2.eval (newCircle h o r (some p)).1 c s =
        add (add (add p.1 (smul (r * c) p.2.1)) (smul (r * s) p.2.2.1)) (smul 0 p.2.2.2) := by
  constructor
  · simp [newCircle, Heap.get, Heap.rebind, Heap.alloc]
  · intro c s
    simp [newCircle, Circle.eval, Heap.rebind, Heap.alloc]

/-! ## C305: the normal and the constructor by center -/

/-- Setting the normal changes what is shown and leaves the points: unless the new normal is perpendicular to the old axis, the circle
is not perpendicular to its normal. -/
theorem C305_normal_refuted (h : Heap K) (k : Circle K) (hr : k.r ≠ 0) (n : V3 K) :
    let h' := k.setNormal h n
    k.getNormal h' = n ∧ (∀ c s, sub (k.eval h' c s) (h'.arr k.plane) = sub (k.eval h c s) (h.arr k.plane)) ∧
      (dot (h.arr (k.plane + 1)) n ≠ 0 → dot (sub (k.eval h' 1 0) (h'.arr k.plane)) (k.getNormal h') ≠ 0) := by
  intro h'
  have e0 : h'.arr k.plane = h.arr k.plane := by simp [h', Circle.setNormal]
  have e1 : h'.arr (k.plane + 1) = h.arr (k.plane + 1) := by simp [h', Circle.setNormal]
  have e2 : h'.arr (k.plane + 2) = h.arr (k.plane + 2) := by simp [h', Circle.setNormal]
  have e3 : k.getNormal h' = n := by simp [h', Circle.setNormal, Circle.getNormal]
  refine ⟨e3, ?_, ?_⟩
  · intro c s
    unfold Circle.eval
    rw [e0, e1, e2]
    ext <;> simp [sub, add, smul]
  · intro hd he
    apply hd
    unfold Circle.eval at he
    rw [e0, e1, e2, e3] at he
    unfold dot at *
    simp only [sub, add, smul] at he
    apply mul_left_cancel₀ hr
    rw [mul_zero]
    linear_combination he

/-- Whatever is asked for, the circle made by `create_by_center` is the unit circle about the origin in the plane of the first two axes. -/
theorem C305_create_refuted (h : Heap K) (o : Nat) (center normal : V3 K) (radius : K) (c s : K) :
    let a := createByCenter h o center normal radius
    a.2.eval a.1 c s = ⟨c, s, 0⟩ ∧ a.2.getCenter a.1 = ⟨0, 0, 0⟩ ∧ a.2.getNormal a.1 = ⟨0, 0, 1⟩ ∧ a.2.r = 1 := by
  intro a
  refine ⟨?_, ?_, ?_, rfl⟩
  · simp [a, createByCenter, newCircle, Circle.eval, Heap.rebind, Heap.alloc, Heap.get, add, smul, zero]
  · simp [a, createByCenter, newCircle, Circle.getCenter, Heap.rebind, Heap.alloc, Heap.get, zero]
  · simp [a, createByCenter, newCircle, Circle.getNormal, Heap.rebind, Heap.alloc]

end Verif.Apc
