import Verif.Fdm.Model2
import Verif.Fdm.Props2

/-!
# C406, C407: derivatives and Newton's method for many points at once
-/

set_option linter.unusedSectionVars false

namespace Verif.Fdm

variable {F : Type} [Field F] [LinearOrder F]

/-- The function of the array works row by row. -/
def RowWise (f : (Nat → Nat → F) → Nat → F) (g : (Nat → F) → F) : Prop := ∀ X k, f (transp X) k = g (X k)

theorem putCol_row (X : Nat → Nat → F) (i : Nat) (v : Nat → F) (k : Nat) : putCol X i v k = put id (X k) i (v k) := by
  funext c; rfl

theorem gradMulti_fold (f : (Nat → Nat → F) → Nat → F) (g : (Nat → F) → F) (hf : RowWise f g) (h : F) (k : Nat) (l : List Nat) :
    ∀ s : (Nat → Nat → F) × (Nat → Nat → F),
      ((l.foldl (gradMultiStep f h) s).1 k, (l.foldl (gradMultiStep f h) s).2 k) = l.foldl (gradStep id g h) (s.1 k, s.2 k) := by
  induction l with
  | nil => intro s; rfl
  | cons i l ih =>
    intro s
    simp only [List.foldl_cons]
    rw [ih]
    congr 1
    simp only [gradMultiStep, gradStep, hf _ k, putCol_row]

/-- C406: every row of `gradient_multi` is what `gradient` answers for that row. -/
theorem C406_gradient (n : Nat) (f : (Nat → Nat → F) → Nat → F) (g : (Nat → F) → F) (hf : RowWise f g) (X : Nat → Nat → F) (h : F)
    (k : Nat) : gradMulti n f X h k = (gradient id n g (X k) h).2 :=
  congrArg Prod.snd (gradMulti_fold f g hf h k (List.range n) (X, fun _ _ => 0))

theorem hessMultiEntry_row (f : (Nat → Nat → F) → Nat → F) (g : (Nat → F) → F) (hf : RowWise f g) (X : Nat → Nat → F) (h : F)
    (i j k : Nat) : hessMultiEntry f X h i j k = hessEntry id g (X k) h i j := by
  unfold hessMultiEntry hessEntry
  simp only [sub_eq_add_neg]
  split_ifs
  · simp only [hf _ k, putCol_row]
  · simp only [hf _ k, putCol_row]

/-- C406: every layer of `hessian_multi` is what `hessian` answers for that row. -/
theorem C406_hessian (n : Nat) (f : (Nat → Nat → F) → Nat → F) (g : (Nat → F) → F) (hf : RowWise f g) (X : Nat → Nat → F) (h : F)
    (k : Nat) : hessMulti n f X h k = hessian id n g (X k) h := by
  unfold hessMulti hessian
  have inner : ∀ (i : Nat) (l : List Nat) (H : Nat → Nat → Nat → F),
      (l.foldl (fun (H : Nat → Nat → Nat → F) j =>
        let v := hessMultiEntry f X h i j
        fun k r c => if r = i ∧ c = j ∨ r = j ∧ c = i then v k else H k r c) H) k =
      l.foldl (fun (H : Nat → Nat → F) j =>
        let v := hessEntry id g (X k) h i j
        fun r c => if r = i ∧ c = j ∨ r = j ∧ c = i then v else H r c) (H k) := by
    intro i l
    induction l with
    | nil => intro H; rfl
    | cons j l ih =>
      intro H
      simp only [List.foldl_cons]
      rw [ih]
      congr 1
      funext r c
      simp only [hessMultiEntry_row f g hf]
  have outer : ∀ (l : List Nat) (H : Nat → Nat → Nat → F),
      (l.foldl (fun H i =>
        (List.range' i (n - i)).foldl (fun (H : Nat → Nat → Nat → F) j =>
          let v := hessMultiEntry f X h i j
          fun k r c => if r = i ∧ c = j ∨ r = j ∧ c = i then v k else H k r c) H) H) k =
      l.foldl (fun H i =>
        (List.range' i (n - i)).foldl (fun (H : Nat → Nat → F) j =>
          let v := hessEntry id g (X k) h i j
          fun r c => if r = i ∧ c = j ∨ r = j ∧ c = i then v else H r c) H) (H k) := by
    intro l
    induction l with
    | nil => intro H; rfl
    | cons i l ih =>
      intro H
      simp only [List.foldl_cons]
      rw [ih, inner]
  exact outer _ _

/-- The sum of the squares of the coordinates 0 and 1, row by row. -/
example : RowWise (fun (Y : Nat → Nat → ℚ) k => Y 0 k ^ 2 + Y 1 k ^ 2) (fun x => x 0 ^ 2 + x 1 ^ 2) := fun _ _ => rfl
example : gradMulti 2 (fun (Y : Nat → Nat → ℚ) k => Y 0 k ^ 2 + Y 1 k ^ 2) (fun k c => k + 3 * c) (1 / 10) 4 1 = 14 ∧
    hessMulti 2 (fun (Y : Nat → Nat → ℚ) k => Y 0 k ^ 2 + Y 0 k * Y 1 k) (fun k c => k + 3 * c) (1 / 10) 4 0 1 = 1 := by decide +kernel

/-! ## Newton's method -/

/-- One step of Newton's method for one point: `none` when the Hessian is singular. -/
def newt (n : Nat) (inv : (Nat → Nat → F) → Option (Nat → Nat → F)) (g : (Nat → F) → F) (h : F) (x : Nat → F) : Option (Nat → F) :=
  (inv (hessian id n g x h)).map fun Hi c => x c - matVec n Hi (gradient id n g x h).2 c

/-- The test for one point. -/
def accepts (norm : (Nat → F) → F) (g : (Nat → F) → F) (tol : F) (x y : Nat → F) : Bool :=
  decide (g y < tol ∨ norm (fun c => y c - x c) < tol)

/-- The iteration for one point alone: the first point that passes the test. -/
def alone (n : Nat) (inv : (Nat → Nat → F) → Option (Nat → Nat → F)) (norm : (Nat → F) → F) (g : (Nat → F) → F) (tol h : F) :
    Nat → (Nat → F) → Option (Nat → F)
  | 0, _ => none
  | fuel + 1, x =>
    match newt n inv g h x with
    | none => none
    | some y => if accepts norm g tol x y then some y else alone n inv norm g tol h fuel y

/-- No singular Hessian is met in the first `fuel` rounds, or before the point is accepted. -/
def Regular (n : Nat) (inv : (Nat → Nat → F) → Option (Nat → Nat → F)) (norm : (Nat → F) → F) (g : (Nat → F) → F) (tol h : F) :
    Nat → (Nat → F) → Prop
  | 0, _ => True
  | fuel + 1, x => ∃ y, newt n inv g h x = some y ∧ (accepts norm g tol x y = true ∨ Regular n inv norm g tol h fuel y)

theorem mapM_congr {α β : Type} (l : List α) (p q : α → Option β) (h : ∀ a ∈ l, p a = q a) : l.mapM p = l.mapM q := by
  induction l with
  | nil => rfl
  | cons a l ih =>
    rw [List.mapM_cons, List.mapM_cons, h a (by simp), ih fun b hb => h b (by simp [hb])]

theorem mapM_zipIdx {α β : Type} (l : List α) (q : α → Option β) : ∀ m : Nat, (l.zipIdx m).mapM (fun p => q p.1) = l.mapM q := by
  induction l with
  | nil => intro m; rfl
  | cons a l ih =>
    intro m
    rw [List.zipIdx_cons, List.mapM_cons, List.mapM_cons, ih]

theorem mapM_some {α β : Type} (l : List α) (p : α → Option β) (q : α → β) (h : ∀ a ∈ l, p a = some (q a)) :
    l.mapM p = some (l.map q) := by
  induction l with
  | nil => rfl
  | cons a l ih =>
    rw [List.mapM_cons, h a (by simp), ih fun b hb => h b (by simp [hb])]
    rfl

theorem mapM_none {α β : Type} (l : List α) (p : α → Option β) (a : α) (ha : a ∈ l) (h : p a = none) : l.mapM p = none := by
  induction l with
  | nil => simp at ha
  | cons b l ih =>
    rw [List.mapM_cons]
    rcases List.mem_cons.1 ha with rfl | ha
    · rw [h]; rfl
    · rw [ih ha]
      cases p b <;> rfl

theorem arr_of_mem (rows : List (Row F)) (r : Row F) (k : Nat) (h : (r, k) ∈ rows.zipIdx) : arr rows k = r.2 := by
  have := List.mem_zipIdx_iff_getElem?.1 h
  unfold arr
  rw [List.getD_eq_getElem?_getD, this]
  rfl

variable {n : Nat} {inv : (Nat → Nat → F) → Option (Nat → Nat → F)} {norm : (Nat → F) → F} {f : (Nat → Nat → F) → Nat → F}
  {g : (Nat → F) → F} {tol h : F}

theorem newPoints_row (hf : RowWise f g) (rows : List (Row F)) :
    newPoints n inv f h rows = rows.mapM fun r => (newt n inv g h r.2).map fun y => (r, (r.1, y)) := by
  unfold newPoints
  rw [← mapM_zipIdx rows _ 0]
  refine mapM_congr _ _ _ ?_
  rintro ⟨r, k⟩ hr
  have e := arr_of_mem rows r k hr
  simp only
  rw [C406_hessian n f g hf, C406_gradient n f g hf, e]
  unfold newt
  rw [Option.map_map]
  rfl

theorem masked_row (hf : RowWise f g) (rs : List (Row F × Row F)) :
    masked norm f tol rs = rs.map fun r => (r.2, accepts norm g tol r.1.2 r.2.2) := by
  unfold masked
  refine List.ext_getElem (by simp) fun k h1 h2 => ?_
  simp only [List.getElem_map, List.getElem_zipIdx, Nat.zero_add]
  have hk : k < rs.length := by simpa using h2
  have e : arr (rs.map (·.2)) k = rs[k].2.2 := by
    unfold arr
    rw [List.getD_eq_getElem?_getD, List.getElem?_map, List.getElem?_eq_getElem hk]
    rfl
  rw [hf _ k, e]
  rfl

theorem store_notin (rs : List (Row F × Bool)) (i : Nat) : ∀ done : Nat → Nat → F, (∀ r ∈ rs, r.2 = true → r.1.1 ≠ i) →
    store done rs i = done i := by
  induction rs with
  | nil => intro done _; rfl
  | cons r rs ih =>
    intro done hr
    show store (if r.2 then fun k => if k = r.1.1 then r.1.2 else done k else done) rs i = done i
    rw [ih _ fun q hq => hr q (by simp [hq])]
    by_cases hb : r.2 = true
    · rw [if_pos hb, if_neg (Ne.symm (hr r (by simp) hb))]
    · rw [if_neg hb]

theorem store_in (rs : List (Row F × Bool)) (r : Row F) (hr : (r, true) ∈ rs) : ∀ done : Nat → Nat → F,
    (rs.map (·.1.1)).Nodup → store done rs r.1 = r.2 := by
  induction rs with
  | nil => simp at hr
  | cons q rs ih =>
    intro done hn
    show store (if q.2 then fun k => if k = q.1.1 then q.1.2 else done k else done) rs r.1 = r.2
    rw [List.map_cons, List.nodup_cons] at hn
    rcases List.mem_cons.1 hr with rfl | hm
    · rw [store_notin]
      · simp
      · intro p hp _ he
        exact hn.1 (List.mem_map.2 ⟨p, hp, he⟩)
    · exact ih hm _ hn.2

theorem multiLoop_spec (hf : RowWise f g) : ∀ (fuel : Nat) (rows : List (Row F)) (done : Nat → Nat → F), (rows.map (·.1)).Nodup →
    (∀ r ∈ rows, Regular n inv norm g tol h fuel r.2) →
    (∀ r ∈ rows, multiLoop n inv norm f tol h fuel rows done r.1 = (alone n inv norm g tol h fuel r.2).getD (done r.1)) ∧
    ∀ i, (∀ r ∈ rows, r.1 ≠ i) → multiLoop n inv norm f tol h fuel rows done i = done i := by
  intro fuel
  induction fuel with
  | zero => intro rows done _ _; exact ⟨fun _ _ => rfl, fun _ _ => rfl⟩
  | succ fuel ih =>
    intro rows done hn hR
    obtain ⟨Y, hY⟩ : ∃ Y : Row F → (Nat → F), ∀ r ∈ rows, newt n inv g h r.2 = some (Y r) ∧
        (accepts norm g tol r.2 (Y r) = true ∨ Regular n inv norm g tol h fuel (Y r)) := by
      classical
      refine ⟨fun r => if hr : r ∈ rows then (hR r hr).choose else fun _ => 0, fun r hr => ?_⟩
      simp only [dif_pos hr]
      exact (hR r hr).choose_spec
    have hp : newPoints n inv f h rows = some (rows.map fun r => (r, (r.1, Y r))) := by
      rw [newPoints_row hf]
      exact mapM_some _ _ _ fun r hr => by rw [(hY r hr).1]; rfl
    have hm : masked norm f tol (rows.map fun r => (r, (r.1, Y r))) =
        rows.map fun r => ((r.1, Y r), accepts norm g tol r.2 (Y r)) := by
      rw [masked_row hf, List.map_map]
      rfl
    set ms := rows.map fun r => (((r.1, Y r) : Row F), accepts norm g tol r.2 (Y r)) with hms
    have hmn : (ms.map (·.1.1)).Nodup := by
      rw [hms, List.map_map]
      exact hn
    have hal : ∀ r ∈ rows, alone n inv norm g tol h (fuel + 1) r.2 =
        if accepts norm g tol r.2 (Y r) then some (Y r) else alone n inv norm g tol h fuel (Y r) := by
      intro r hr
      simp only [alone, (hY r hr).1]
    have hun : multiLoop n inv norm f tol h (fuel + 1) rows done =
        if ms.all (·.2) then store done ms
        else multiLoop n inv norm f tol h fuel ((ms.filter fun m => !m.2).map (·.1)) (store done ms) := by
      simp only [multiLoop, hp, hm]
    have hsin : ∀ r ∈ rows, accepts norm g tol r.2 (Y r) = true → store done ms r.1 = Y r := by
      intro r hr ha
      exact store_in ms (r.1, Y r) (List.mem_map.2 ⟨r, hr, by rw [ha]⟩) done hmn
    have hinj : ∀ r ∈ rows, ∀ q ∈ rows, r.1 = q.1 → r = q := by
      intro r hr q hq he
      exact List.inj_on_of_nodup_map hn hr hq he
    have hsout : ∀ r ∈ rows, accepts norm g tol r.2 (Y r) = false → store done ms r.1 = done r.1 := by
      intro r hr ha
      refine store_notin ms r.1 done fun m hm hb he => ?_
      obtain ⟨q, hq, rfl⟩ := List.mem_map.1 hm
      have : q = r := hinj q hq r hr he
      subst this
      simp only at hb
      rw [ha] at hb
      exact absurd hb (by simp)
    have hrest : ∀ m, m ∈ (ms.filter fun m => !m.2).map (·.1) ↔ ∃ r ∈ rows, accepts norm g tol r.2 (Y r) = false ∧ m = (r.1, Y r) := by
      intro m
      constructor
      · intro h
        obtain ⟨p, hp, rfl⟩ := List.mem_map.1 h
        obtain ⟨h1, h2⟩ := List.mem_filter.1 hp
        obtain ⟨r, hr, rfl⟩ := List.mem_map.1 h1
        exact ⟨r, hr, by simpa using h2, rfl⟩
      · rintro ⟨r, hr, ha, rfl⟩
        exact List.mem_map.2 ⟨_, List.mem_filter.2 ⟨List.mem_map.2 ⟨r, hr, rfl⟩, by simp [ha]⟩, rfl⟩
    have hnod : (((ms.filter fun m => !m.2).map (·.1)).map (·.1)).Nodup := by
      rw [List.map_map]
      exact hmn.sublist (List.Sublist.map _ List.filter_sublist)
    obtain ⟨iA, iB⟩ := ih ((ms.filter fun m => !m.2).map (·.1)) (store done ms) hnod (by
      intro m hm
      obtain ⟨r, hr, ha, rfl⟩ := (hrest m).1 hm
      rcases (hY r hr).2 with h | h
      · rw [ha] at h; simp at h
      · exact h)
    rw [hun]
    by_cases hall : ms.all (·.2) = true
    · rw [if_pos hall]
      constructor
      · intro r hr
        have ha : accepts norm g tol r.2 (Y r) = true := by
          have := List.all_eq_true.1 hall _ (List.mem_map.2 ⟨r, hr, rfl⟩)
          simpa using this
        rw [hal r hr, if_pos ha, hsin r hr ha]
        rfl
      · intro i hi
        refine store_notin ms i done fun m hm _ he => ?_
        obtain ⟨q, hq, rfl⟩ := List.mem_map.1 hm
        exact hi q hq he
    · rw [if_neg hall]
      constructor
      · intro r hr
        rw [hal r hr]
        cases ha : accepts norm g tol r.2 (Y r) with
        | true =>
          rw [if_pos rfl, iB r.1 (by
            intro m hm he
            obtain ⟨q, hq, hb, rfl⟩ := (hrest m).1 hm
            have : q = r := hinj q hq r hr he
            subst this
            rw [ha] at hb
            simp at hb), hsin r hr ha]
          rfl
        | false =>
          have := iA (r.1, Y r) ((hrest _).2 ⟨r, hr, ha, rfl⟩)
          simp only at this
          rw [if_neg (by simp), this, hsout r hr ha]
      · intro i hi
        rw [iB i (by
          intro m hm he
          obtain ⟨q, hq, _, rfl⟩ := (hrest m).1 hm
          exact hi q hq he)]
        refine store_notin ms i done fun m hm _ he => ?_
        obtain ⟨q, hq, rfl⟩ := List.mem_map.1 hm
        exact hi q hq he

theorem rows_mem (initial : List (Nat → F)) (i : Nat) (hi : i < initial.length) :
    (i, initial[i]) ∈ initial.zipIdx.map fun (p, k) => ((k, p) : Row F) :=
  List.mem_map.2 ⟨(initial[i], i), List.mem_zipIdx_iff_getElem?.2 (by simp [hi]), rfl⟩

/-- C407: when no singular Hessian is met, every row of `multi_newtons_method` is what Newton's method gives for that row alone, and
zeros when that does not end within the number of rounds. -/
theorem C407_rows_partial (hf : RowWise f g) (initial : List (Nat → F)) (maxIter : Nat)
    (hR : ∀ x ∈ initial, Regular n inv norm g tol h maxIter x) (i : Nat) (hi : i < initial.length) :
    multiNewton n inv norm f initial tol maxIter h i = (alone n inv norm g tol h maxIter initial[i]).getD fun _ => 0 := by
  refine (multiLoop_spec hf maxIter _ (fun _ _ => 0) ?_ ?_).1 (i, initial[i]) (rows_mem initial i hi)
  · rw [List.map_map]
    have : (initial.zipIdx.map ((fun r : Row F => r.1) ∘ fun (p, k) => ((k, p) : Row F))) = initial.zipIdx.map Prod.snd := rfl
    rw [this, List.zipIdx_map_snd]
    exact List.nodup_range'
  · intro r hr
    obtain ⟨⟨p, k⟩, hpk, rfl⟩ := List.mem_map.1 hr
    refine hR p ?_
    have := List.mem_zipIdx_iff_getElem?.1 hpk
    exact List.mem_of_getElem? this

/-- C407: a point that is not accepted within the number of rounds is answered with the origin, not with the last point reached. -/
theorem C407_unfinished_refuted (hf : RowWise f g) (initial : List (Nat → F)) (maxIter : Nat)
    (hR : ∀ x ∈ initial, Regular n inv norm g tol h maxIter x) (i : Nat) (hi : i < initial.length)
    (hu : alone n inv norm g tol h maxIter initial[i] = none) : multiNewton n inv norm f initial tol maxIter h i = fun _ => 0 := by
  rw [C407_rows_partial hf initial maxIter hR i hi, hu]
  rfl

/-- C407: one point with a singular Hessian makes the answer for all points the origin. -/
theorem C407_singular_refuted (hf : RowWise f g) (initial : List (Nat → F)) (maxIter : Nat) (x : Nat → F) (hx : x ∈ initial)
    (hs : newt n inv g h x = none) : multiNewton n inv norm f initial tol maxIter h = fun _ _ => 0 := by
  unfold multiNewton
  cases maxIter with
  | zero => rfl
  | succ m =>
    simp only [multiLoop]
    obtain ⟨i, hi, rfl⟩ := List.getElem_of_mem hx
    rw [newPoints_row hf, mapM_none _ _ _ (rows_mem initial i hi) (by simp only; rw [hs]; rfl)]

/-- C407: a step to a point where the function is negative ends the iteration there, be it a root or not. -/
theorem C407_negative_refuted (hf : RowWise f g) (x y : Nat → F) (maxIter : Nat) (hm : 0 < maxIter) (htol : 0 < tol)
    (hy : newt n inv g h x = some y) (hneg : g y < 0) : multiNewton n inv norm f [x] tol maxIter h 0 = y := by
  obtain ⟨m, rfl⟩ : ∃ m, maxIter = m + 1 := ⟨maxIter - 1, by omega⟩
  have ha : accepts norm g tol x y = true := by
    unfold accepts
    simp [hneg.trans htol]
  rw [C407_rows_partial hf [x] (m + 1) (by
    intro z hz
    rw [List.mem_singleton] at hz
    subst hz
    exact ⟨y, hy, Or.inl ha⟩) 0 (by simp)]
  simp [alone, hy, ha]

/-- The inverse of a matrix with one entry. -/
def inv1 (H : Nat → Nat → ℚ) : Option (Nat → Nat → ℚ) := if H 0 0 = 0 then none else some fun _ _ => 1 / H 0 0

-- `(x - 3) ^ 2` from two points: the hypotheses of `C407_rows_partial` and the answer
example : ∀ x ∈ ([fun _ => 0, fun _ => 10] : List (Nat → ℚ)),
    Regular 1 inv1 (fun v => |v 0|) (fun x => (x 0 - 3) ^ 2) (1 / 100) (1 / 10) 5 x := by
  intro x hx
  simp only [List.mem_cons, List.not_mem_nil, or_false] at hx
  rcases hx with rfl | rfl
  · exact ⟨(newt 1 inv1 (fun x => (x 0 - 3) ^ 2) (1 / 10) fun _ => 0).get (by decide +kernel), (Option.some_get _).symm,
      Or.inl (by decide +kernel)⟩
  · exact ⟨(newt 1 inv1 (fun x => (x 0 - 3) ^ 2) (1 / 10) fun _ => 10).get (by decide +kernel), (Option.some_get _).symm,
      Or.inl (by decide +kernel)⟩
example : multiNewton 1 inv1 (fun v => |v 0|) (fun (Y : Nat → Nat → ℚ) k => (Y 0 k - 3) ^ 2) [fun _ => 0, fun _ => 10] (1 / 100) 5
    (1 / 10) 1 0 = 3 := by decide +kernel
-- the same with one more point and `x ^ 3 + 8`, whose second derivative vanishes at that point
example : (newt 1 inv1 (fun x => x 0 ^ 3 + 8) (1 / 10) (fun _ => 0)).isNone = true := by decide +kernel
example : multiNewton 1 inv1 (fun v => |v 0|) (fun (Y : Nat → Nat → ℚ) k => Y 0 k ^ 3 + 8) [fun _ => 1, fun _ => 0] (1 / 100) 50
    (1 / 10) 0 0 = 0 := by decide +kernel
-- `x ^ 4 + 1` from 6 is not accepted in two rounds
example : (alone 1 inv1 (fun v => |v 0|) (fun x => x 0 ^ 4 + 1) (1 / 100) (1 / 10) 2 (fun _ => 6)).isNone = true := by decide +kernel
-- `x ^ 3 - 100` from 1: accepted at once, neither a root nor a critical point
example : (newt 1 inv1 (fun x => x 0 ^ 3 - 100) (1 / 10) (fun _ => 1)).map (· 0) = some (299 / 600) := by decide +kernel

end Verif.Fdm
