import Mathlib.Algebra.Order.Field.Basic
import Mathlib.Algebra.Order.Group.Abs

/-! # Triangles and segments: `mmcore/numeric/algorithms/moller.pyx`

Numbers are elements of an ordered field; `EPSILON` (1e-8, line 14) is a parameter. -/

set_option linter.unusedSectionVars false

namespace Verif.Mol

/-- A point or vector. -/
@[ext] structure V (K : Type) where
  x : K
  y : K
  z : K
  deriving DecidableEq, Repr

variable {K : Type} [Field K] [LinearOrder K] [IsStrictOrderedRing K]

def sub (a b : V K) : V K := ⟨a.x - b.x, a.y - b.y, a.z - b.z⟩
def add (a b : V K) : V K := ⟨a.x + b.x, a.y + b.y, a.z + b.z⟩
def smul (t : K) (a : V K) : V K := ⟨t * a.x, t * a.y, t * a.z⟩
def dot (a b : V K) : K := a.x * b.x + a.y * b.y + a.z * b.z
def cross (a b : V K) : V K := ⟨a.y * b.z - a.z * b.y, a.z * b.x - a.x * b.z, a.x * b.y - a.y * b.x⟩

/-- `_is_close` (moller.pyx:18-20). -/
def isClose (eps a b : K) : Bool := decide (|a - b| < eps)

/-- `_point_equals` (moller.pyx:24-26). -/
def pointEquals (eps : K) (p q : V K) : Bool := isClose eps p.x q.x && isClose eps p.y q.y && isClose eps p.z q.z

/-- `_point_on_edge` (moller.pyx:30-60). -/
def pointOnEdge (eps : K) (p v0 v1 : V K) : Bool :=
  let vec := sub p v0
  let edge := sub v1 v0
  let c := cross vec edge
  if ¬(isClose eps c.x 0 && isClose eps c.y 0 && isClose eps c.z 0) then false
  else
    let d := dot vec edge
    let len := dot edge edge
    if d < -eps ∨ d > len + eps then false else true

/-- `_classify_intersection` (moller.pyx:64-85). -/
def classify (eps : K) (p v0 v1 v2 : V K) : Nat :=
  if pointEquals eps p v0 then 2
  else if pointEquals eps p v1 then 2
  else if pointEquals eps p v2 then 2
  else if pointOnEdge eps p v0 v1 then 3
  else if pointOnEdge eps p v1 v2 then 3
  else if pointOnEdge eps p v2 v0 then 3
  else 1

/-- `_intersect_triangle_segment` (moller.pyx:90-162): the point written to `I` with return value 1, or `none` for return
value 0 (`I` untouched). -/
def triSeg (eps : K) (v0 v1 v2 s e : V K) : Option (V K) :=
  let dir := sub e s
  let edge1 := sub v1 v0
  let edge2 := sub v2 v0
  let h := cross dir edge2
  let a := dot edge1 h
  if -eps < a ∧ a < eps then none
  else
    let f := 1 / a
    let sv := sub s v0
    let u := f * dot sv h
    if u < -eps ∨ u > 1 + eps then none
    else
      let q := cross sv edge1
      let v := f * dot dir q
      if v < -eps ∨ u + v > 1 + eps then none
      else
        let t := f * dot edge2 q
        if t < -eps ∨ t > 1 + eps then none
        else some (add s (smul t dir))

/-- `intersect_triangle_segment` (moller.pyx:165-219): the returned flag and the contents of `out`. -/
def intersectOne (eps : K) (v0 v1 v2 s e out : V K) : Nat × V K :=
  match triSeg eps v0 v1 v2 s e with
  | none => (0, out)
  | some i => (1, i)

/-- A triangle as the three rows `V0[i]`, `V1[i]`, `V2[i]`. -/
structure Tri (K : Type) where
  a : V K
  b : V K
  c : V K
  deriving DecidableEq, Repr

/-- The call in the loops (moller.pyx:280, 344, 411). -/
def Tri.hit (eps : K) (t : Tri K) (s e : V K) : Option (V K) := triSeg eps t.a t.b t.c s e

/-- The call in the loops (moller.pyx:347, 414). -/
def Tri.flag (eps : K) (t : Tri K) (p : V K) : Nat := classify eps p t.a t.b t.c

/-- `intersect_triangles_segment_one` (moller.pyx:222-288): the loop leaves at the first hit with flag 1. -/
def firstHit (eps : K) (ts : List (Tri K)) (s e : V K) : Option (V K) × Nat :=
  match ts with
  | [] => (none, 0)
  | t :: ts =>
    match t.hit eps s e with
    | some i => (some i, 1)
    | none => firstHit eps ts s e

/-- The caller's arrays `outs` and `flags`. -/
structure Arr (K : Type) where
  outs : Nat → V K
  flags : Nat → Nat

def set {α : Type} (f : Nat → α) (i : Nat) (a : α) : Nat → α := fun j => if j = i then a else f j

/-- One pass of the loop of `intersect_triangles_segment` (moller.pyx:328-353). -/
def pass (eps : K) (ts : Nat → Tri K) (s e : V K) (r : Arr K) (i : Nat) : Arr K :=
  match (ts i).hit eps s e with
  | some p => { outs := set r.outs i p, flags := set r.flags i ((ts i).flag eps p) }
  | none => { r with flags := set r.flags i 0 }

/-- `intersect_triangles_segment` (moller.pyx:292-353) for `n` triangles. -/
def serial (eps : K) (ts : Nat → Tri K) (n : Nat) (s e : V K) (r : Arr K) : Arr K :=
  (List.range n).foldl (pass eps ts s e) r

/-! ## The parallel loop

`intersect_triangles_segment_parallel` (moller.pyx:359-420). The C arrays `c_V0`, `c_V1`, `c_V2`, `c_I` are declared outside
`prange` and only their elements are assigned inside, so there is one copy shared by all threads; `exists` is assigned and
therefore private to each thread. A thread works through its indices; the body is split into four atomic steps (coarser than
the machine: the copying of a triangle is one step, so every execution here is one of the program). -/

/-- Where a thread is in the body of the loop. -/
inductive Pc where
  | load | test | classify | store
  deriving DecidableEq, Repr

/-- A thread: the indices still to do, the next step, the private variable `exists`. -/
structure Thread where
  todo : List Nat
  pc : Pc
  hit : Bool
  deriving DecidableEq, Repr

/-- The shared memory. -/
structure Shared (K : Type) where
  tri : Tri K
  ci : V K
  arr : Arr K

/-- One step of a thread. -/
def step (eps : K) (ts : Nat → Tri K) (s e : V K) (m : Shared K) (t : Thread) : Shared K × Thread :=
  match t.todo with
  | [] => (m, t)
  | i :: rest =>
    match t.pc with
    | .load => ({ m with tri := ts i }, { t with pc := .test })
    | .test =>
      match m.tri.hit eps s e with
      | some p => ({ m with ci := p }, { t with pc := .classify, hit := true })
      | none => (m, { t with pc := .classify, hit := false })
    | .classify =>
      if t.hit then
        ({ m with arr := { m.arr with flags := set m.arr.flags i (m.tri.flag eps m.ci) } }, { t with pc := .store })
      else ({ m with arr := { m.arr with flags := set m.arr.flags i 0 } }, { t with pc := .store })
    | .store =>
      if t.hit then
        ({ m with arr := { m.arr with outs := set m.arr.outs i m.ci } }, { t with todo := rest, pc := .load })
      else (m, { t with todo := rest, pc := .load })

/-- The whole program: the shared memory and the threads. -/
structure State (K : Type) where
  mem : Shared K
  threads : List Thread

/-- Thread `k` makes a step. -/
def tick (eps : K) (ts : Nat → Tri K) (s e : V K) (st : State K) (k : Nat) : State K :=
  match st.threads[k]? with
  | none => st
  | some t => let r := step eps ts s e st.mem t; ⟨r.1, st.threads.set k r.2⟩

/-- Run a schedule: the list of the threads which make a step. -/
def exec (eps : K) (ts : Nat → Tri K) (s e : V K) (st : State K) (sched : List Nat) : State K :=
  sched.foldl (tick eps ts s e) st

/-- The start: thread `k` has the indices `parts[k]` (`schedule='static'`: contiguous parts). -/
def start (m : Shared K) (parts : List (List Nat)) : State K := ⟨m, parts.map fun is => ⟨is, .load, false⟩⟩

/-- All threads have finished. -/
def State.done (st : State K) : Prop := ∀ t ∈ st.threads, t.todo = []

end Verif.Mol
