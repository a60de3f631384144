import Verif.Fdm.Model

/-!
# Model of the functions on many points at once in `mmcore/numeric/fdm.py`

`gradient_multi`, `hessian_multi` and `multi_newtons_method` on arrays of floats (an array of integers makes the assignments
`points[:, i] += h` raise).  An array of points is a function of the row and of the coordinate; `f` takes the transposed array and gives
a number for each row.
-/

namespace Verif.Fdm

variable {F : Type} [Field F] [LinearOrder F]

/-- `X[:, i] = v` for an array of floats. -/
def putCol (X : Nat → Nat → F) (i : Nat) (v : Nat → F) : Nat → Nat → F := fun k c => if c = i then v k else X k c

/-- `X.T` -/
def transp (X : Nat → Nat → F) : Nat → Nat → F := fun i k => X k i

/-- One round of `gradient_multi` (fdm.py:623-630): the points and the gradients. -/
def gradMultiStep (f : (Nat → Nat → F) → Nat → F) (h : F) (s : (Nat → Nat → F) × (Nat → Nat → F)) (i : Nat) :
    (Nat → Nat → F) × (Nat → Nat → F) :=
  let p1 := putCol s.1 i fun k => s.1 k i + h
  let fPlus := f (transp p1)
  let p2 := putCol p1 i fun k => p1 k i - 2 * h
  let fMinus := f (transp p2)
  let p3 := putCol p2 i fun k => p2 k i + h
  (p3, putCol s.2 i fun k => (fPlus k - fMinus k) / (2 * h))

/-- `gradient_multi(f, points, h)` (fdm.py:610-631), which works on a copy of the points. -/
def gradMulti (n : Nat) (f : (Nat → Nat → F) → Nat → F) (X : Nat → Nat → F) (h : F) : Nat → Nat → F :=
  ((List.range n).foldl (gradMultiStep f h) (X, fun _ _ => 0)).2

/-- The entries `H[:, i, j]` of `hessian_multi` for `i <= j` (fdm.py:570-594). -/
def hessMultiEntry (f : (Nat → Nat → F) → Nat → F) (X : Nat → Nat → F) (h : F) (i j : Nat) : Nat → F :=
  let add (Y : Nat → Nat → F) (c : Nat) (s : F) : Nat → Nat → F := putCol Y c fun k => Y k c + s
  if i = j then
    fun k => (f (transp (add X i h)) k - 2 * f (transp X) k + f (transp (add X i (-h))) k) / h ^ 2
  else
    fun k => (f (transp (add (add X i h) j h)) k - f (transp (add (add X i h) j (-h))) k
      - f (transp (add (add X i (-h)) j h)) k + f (transp (add (add X i (-h)) j (-h))) k) / (4 * h ^ 2)

/-- `hessian_multi(f, points, h)` (fdm.py:541-595). -/
def hessMulti (n : Nat) (f : (Nat → Nat → F) → Nat → F) (X : Nat → Nat → F) (h : F) : Nat → Nat → Nat → F :=
  (List.range n).foldl (fun H i =>
    (List.range' i (n - i)).foldl (fun (H : Nat → Nat → Nat → F) j =>
      let v := hessMultiEntry f X h i j
      fun k r c => if r = i ∧ c = j ∨ r = j ∧ c = i then v k else H k r c) H) (fun _ _ _ => 0)

/-- A row of the array `point` that is still worked on, with its number `ixs` in the array of the caller. -/
abbrev Row (F : Type) := Nat × (Nat → F)

/-- The array `point`. -/
def arr (rows : List (Row F)) : Nat → Nat → F := fun k => (rows.getD k (0, fun _ => 0)).2

/-- Gradients, Hessians, their inverses and the new points (fdm.py:719-733): `none` is `LinAlgError`, which `np.linalg.inv` raises
when one of the matrices of the stack is singular. -/
def newPoints (n : Nat) (inv : (Nat → Nat → F) → Option (Nat → Nat → F)) (f : (Nat → Nat → F) → Nat → F) (h : F)
    (rows : List (Row F)) : Option (List (Row F × Row F)) :=
  let G := gradMulti n f (arr rows) h
  let H := hessMulti n f (arr rows) h
  rows.zipIdx.mapM fun (r, k) => (inv (H k)).map fun Hi => (r, (r.1, fun c => r.2 c - matVec n Hi (G k) c))

/-- The mask (fdm.py:734-736) beside the new points. -/
def masked (norm : (Nat → F) → F) (f : (Nat → Nat → F) → Nat → F) (tol : F) (rs : List (Row F × Row F)) : List (Row F × Bool) :=
  let fv := f (transp (arr (rs.map (·.2))))
  rs.zipIdx.map fun (r, k) => (r.2, decide (fv k < tol ∨ norm (fun c => r.2.2 c - r.1.2 c) < tol))

/-- `done[ixs[mask]] = new_point[mask]` (fdm.py:738). -/
def store (done : Nat → Nat → F) (rs : List (Row F × Bool)) : Nat → Nat → F :=
  rs.foldl (fun D r => if r.2 then fun k => if k = r.1.1 then r.1.2 else D k else D) done

/-- The loop of `multi_newtons_method` (fdm.py:718-751), without `full_return`. -/
def multiLoop (n : Nat) (inv : (Nat → Nat → F) → Option (Nat → Nat → F)) (norm : (Nat → F) → F) (f : (Nat → Nat → F) → Nat → F)
    (tol h : F) : Nat → List (Row F) → (Nat → Nat → F) → Nat → Nat → F
  | 0, _, done => done
  | fuel + 1, rows, done =>
    match newPoints n inv f h rows with
    | none => done
    | some rs =>
      let ms := masked norm f tol rs
      let done' := store done ms
      if ms.all (·.2) then done'
      else multiLoop n inv norm f tol h fuel ((ms.filter fun m => !m.2).map (·.1)) done'

/-- `multi_newtons_method(f, initial_point, tol, max_iter)` (fdm.py:683-751). -/
def multiNewton (n : Nat) (inv : (Nat → Nat → F) → Option (Nat → Nat → F)) (norm : (Nat → F) → F) (f : (Nat → Nat → F) → Nat → F)
    (initial : List (Nat → F)) (tol : F) (maxIter : Nat) (h : F) : Nat → Nat → F :=
  multiLoop n inv norm f tol h maxIter (initial.zipIdx.map fun (p, k) => (k, p)) fun _ _ => 0

end Verif.Fdm
