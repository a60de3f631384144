import Verif.Cdll.Ops

/-! # C07: the circular doubly linked list as a sequence -/

namespace Verif.Cdll
variable {α : Type} [DecidableEq α]

/-- Specification: the same calls on a plain Python list. -/
def specCall (xs : List α) : Op α → Except Err (List α)
  | .append d => .ok (xs ++ [d])
  | .appendNode d => .ok (xs ++ [d])
  | .insert d i => if i > xs.length ∨ i < 0 then .error .value else .ok (xs.insertIdx i.toNat d)
  | .removeByIndex i => if i ≥ xs.length ∨ i < 0 then .error .value else .ok (xs.eraseIdx i.toNat)
  | .remove d => if d ∈ xs then .ok (xs.erase d) else .error .value
  | .setItem i d => if i ≥ xs.length ∨ i < 0 then .error .value else .ok (xs.set i.toNat d)
  | .replaceNode i d => if i ≥ xs.length ∨ i < 0 then .error .value else .ok (xs.set i.toNat d)

def specStep (xs : List α) (o : Op α) : List α :=
  match specCall xs o with
  | .ok ys => ys
  | .error _ => xs

def specRun (xs : List α) (ops : List (Op α)) : List α := ops.foldl specStep xs

/-- What the class promises for a history: iteration lists the specification's elements. -/
def SequenceClaim (ops : List (Op α)) : Prop :=
  ∃ fuel, toList (run empty ops) fuel = some ((specRun [] ops).map some)

/-- Calls outside the refuted corners: `insert(x, 0)` into two or more elements, `remove` of a missing item or of the
only item, `replace_node` in a list of two or more. -/
def Allowed (xs : List α) : Op α → Prop
  | .insert _ i => i ≠ 0 ∨ xs.length ≤ 1
  | .remove d => d ∈ xs ∧ 2 ≤ xs.length
  | .replaceNode i _ => xs.length ≤ 1 ∨ i < 0 ∨ i ≥ xs.length
  | _ => True

/-- Every call of the history is allowed at the moment it is made. -/
def AllAllowed (xs : List α) : List (Op α) → Prop
  | [] => True
  | o :: os => Allowed xs o ∧ AllAllowed (specStep xs o) os

theorem call_rep {s : CDLL α} {xs : List α} (h : Rep s xs) (o : Op α) (ha : Allowed xs o) :
    (∀ ys, specCall xs o = .ok ys → ∃ s', call s o = .ok s' ∧ Rep s' ys) ∧
    (∀ e, specCall xs o = .error e → call s o = .error e) := by
  have hc : s.count = xs.length := h.choose_spec.1
  cases o with
  | append d => exact ⟨fun ys e => by cases e; exact append_rep h d, fun e he => by cases he⟩
  | appendNode d => exact ⟨fun ys e => by cases e; exact appendNode_rep h d, fun e he => by cases he⟩
  | insert d i =>
    simp only [specCall, call]
    by_cases hi : i > xs.length ∨ i < 0
    · rw [if_pos hi]
      exact ⟨fun ys e => (by cases e), fun e he => by cases he; exact insert_out h d i hi⟩
    · rw [if_neg hi]
      refine ⟨fun ys e => ?_, fun e he => by cases he⟩
      cases e
      by_cases h0 : i = 0
      · subst h0
        rcases ha with ha | ha
        · exact absurd rfl ha
        · cases xs with
          | nil => exact insert_nil h d
          | cons a as =>
            cases as with
            | nil => exact insert_single h d
            | cons b bs => simp at ha
      · obtain ⟨j, rfl⟩ : ∃ j : Nat, i = (j : Int) + 1 := ⟨(i - 1).toNat, by omega⟩
        have : ((j : Int) + 1).toNat = j + 1 := by omega
        rw [this]
        exact insert_pos h (by rintro rfl; simp only [List.length_nil] at hi; omega) d j (by omega)
  | removeByIndex i =>
    simp only [specCall, call]
    by_cases hi : i ≥ xs.length ∨ i < 0
    · rw [if_pos hi]
      refine ⟨fun ys e => (by cases e), fun e he => ?_⟩
      cases he
      unfold removeByIndex
      rw [if_pos (by rw [hc]; exact hi)]
    · rw [if_neg hi]
      refine ⟨fun ys e => ?_, fun e he => by cases he⟩
      cases e
      obtain ⟨j, rfl⟩ : ∃ j : Nat, i = (j : Int) := ⟨i.toNat, by omega⟩
      exact removeByIndex_rep h j (by omega)
  | remove d =>
    simp only [specCall, call]
    rw [if_pos ha.1]
    exact ⟨fun ys e => by cases e; exact remove_rep h d ha.1 ha.2, fun e he => by cases he⟩
  | setItem i d =>
    simp only [specCall, call]
    by_cases hi : i ≥ xs.length ∨ i < 0
    · rw [if_pos hi]
      refine ⟨fun ys e => (by cases e), fun e he => ?_⟩
      cases he
      unfold setItem
      rw [if_pos (by rw [hc]; exact hi)]
    · rw [if_neg hi]
      refine ⟨fun ys e => ?_, fun e he => by cases he⟩
      cases e
      obtain ⟨j, rfl⟩ : ∃ j : Nat, i = (j : Int) := ⟨i.toNat, by omega⟩
      exact setItem_rep h j (by omega) d
  | replaceNode i d =>
    simp only [specCall, call]
    by_cases hi : i ≥ xs.length ∨ i < 0
    · rw [if_pos hi]
      refine ⟨fun ys e => (by cases e), fun e he => ?_⟩
      cases he
      unfold replaceNode
      rw [if_pos (by rw [hc]; exact hi)]
    · rw [if_neg hi]
      refine ⟨fun ys e => ?_, fun e he => by cases he⟩
      cases e
      have h1 : xs.length = 1 := by
        rcases ha with ha | ha | ha
        · omega
        · omega
        · omega
      obtain ⟨a, rfl⟩ := List.length_eq_one_iff.1 h1
      obtain rfl : i = 0 := by simp at hi; omega
      exact replaceNode_single h d

theorem run_rep (ops : List (Op α)) : ∀ (s : CDLL α) (xs : List α), Rep s xs → AllAllowed xs ops →
    Rep (run s ops) (specRun xs ops) := by
  induction ops with
  | nil => intro s xs h _; exact h
  | cons o os ih =>
    intro s xs h ha
    have hstep : Rep (step s o) (specStep xs o) := by
      obtain ⟨h1, h2⟩ := call_rep h o ha.1
      unfold step specStep
      cases hc : specCall xs o with
      | ok ys => obtain ⟨s', e, hr⟩ := h1 ys hc; rw [e]; exact hr
      | error e => rw [h2 e hc]; exact h
    exact ih _ _ hstep ha.2

/-- **C07 (partial).** For every history of allowed calls (exceptions caught), with `xs` the list a Python list would
hold: a call raises `ValueError` exactly when the list specification does and then changes nothing; `len` is right;
iteration of a non-empty list yields exactly `xs`; `get` answers for every index and its negative counterpart; and
`index` finds the first occurrence.  Missing compared with the full claim: the calls excluded by `Allowed` and iterating
an empty list, all refuted below. -/
theorem C07_sequence_partial (ops : List (Op α)) (ha : AllAllowed [] ops) :
    (run empty ops).count = (specRun [] ops).length ∧
    (∀ fuel, specRun [] ops ≠ [] → (specRun [] ops).length ≤ fuel →
      toList (run empty ops) fuel = some ((specRun [] ops).map some)) ∧
    (∀ k, k < (specRun [] ops).length → get (run empty ops) k = .ok (specRun [] ops)[k]? ∧
      get (run empty ops) ((k : Int) - (specRun [] ops).length) = .ok (specRun [] ops)[k]?) ∧
    (∀ x, index (run empty ops) x = .ok ((specRun [] ops).findIdx? (· = x))) ∧
    (∀ o, Allowed (specRun [] ops) o →
      ((∃ s', call (run empty ops) o = .ok s') ↔ ∃ ys, specCall (specRun [] ops) o = .ok ys)) := by
  have h := run_rep ops empty [] Rep.empty ha
  refine ⟨h.choose_spec.1, fun f hx hf => toList_rep h hx f hf, fun k hk => get_rep h k hk, index_rep h, ?_⟩
  intro o hao
  obtain ⟨h1, h2⟩ := call_rep h o hao
  cases hc : specCall (specRun [] ops) o with
  | ok ys => obtain ⟨s', e, _⟩ := h1 ys hc; exact ⟨fun _ => ⟨ys, rfl⟩, fun _ => ⟨s', e⟩⟩
  | error e =>
    have := h2 e hc
    constructor
    · rintro ⟨s', e'⟩; rw [this] at e'; cases e'
    · rintro ⟨ys, e'⟩; cases e'

/-- A history meeting the hypotheses, with inserts, removals, an out-of-range call and a replacement of a single node. -/
example : AllAllowed ([] : List Nat) [.append 1, .replaceNode 0 9, .insert 5 0, .append 2, .insert 7 1, .removeByIndex 0,
    .removeByIndex 99, .remove 2, .setItem 1 4] := by
  simp [AllAllowed, Allowed, specStep, specCall]

example : toList (run (empty : CDLL Nat) [.append 1, .replaceNode 0 9, .insert 5 0, .append 2, .insert 7 1,
    .removeByIndex 0, .removeByIndex 99, .remove 2, .setItem 1 4]) 5 = some [some 7, some 4] := by decide

/-- Iteration does not depend on the fuel once it succeeds. -/
theorem iterLoop_mono {s : CDLL α} {h : Nat} : ∀ (f f' t : Nat) (r : List (Option α)), f ≤ f' →
    iterLoop s h f t = some r → iterLoop s h f' t = some r := by
  intro f
  induction f with
  | zero => intro f' t r _ e; simp [iterLoop] at e
  | succ f ih =>
    intro f' t r hle e
    obtain ⟨g, rfl⟩ : ∃ g, f' = g + 1 := ⟨f' - 1, by omega⟩
    simp only [iterLoop] at e ⊢
    split at e
    · rename_i hh; rw [if_pos hh]; exact e
    · rename_i hh
      rw [if_neg hh]
      cases hn : s.next t with
      | none => rw [hn] at e; simp at e
      | some tn =>
        rw [hn] at e
        simp only [Option.bind_eq_bind, Option.bind_some] at e ⊢
        cases hr : iterLoop s h f tn with
        | none => rw [hr] at e; simp at e
        | some rr =>
          rw [hr] at e
          rw [ih g tn rr (by omega) hr]
          exact e

theorem toList_mono {s : CDLL α} (f f' : Nat) (r : List (Option α)) (hle : f ≤ f') (e : toList s f = some r) :
    toList s f' = some r := by
  unfold toList at *
  cases hh : s.head with
  | none => rw [hh] at e; exact e
  | some h =>
    rw [hh] at e
    simp only [Option.bind_eq_bind] at e ⊢
    cases hn : s.next h with
    | none => rw [hn] at e; simp at e
    | some tn =>
      rw [hn] at e
      simp only [Option.bind_some] at e ⊢
      cases hr : iterLoop s h f tn with
      | none => rw [hr] at e; simp at e
      | some rr =>
        rw [hr] at e
        rw [iterLoop_mono f f' tn rr hle hr]
        exact e

/-- A history is refuted by one run that ends with another listing. -/
theorem refute {ops : List (Op α)} {f : Nat} {r : List (Option α)} (e : toList (run empty ops) f = some r)
    (hne : r ≠ (specRun [] ops).map some) : ¬ SequenceClaim ops := by
  rintro ⟨g, hg⟩
  rcases Nat.le_total f g with h | h
  · rw [toList_mono f g _ h e] at hg; exact hne (Option.some.inj hg)
  · rw [toList_mono g f _ h hg] at e; exact hne (Option.some.inj e).symm

/-- **C07 (refuted).** `insert(x, 0)` into `[1, 2]` lists `[9, 2, 1]` instead of `[9, 1, 2]`. -/
theorem C07_insert_front_refuted : ¬ SequenceClaim [Op.append 1, .append 2, .insert 9 0] :=
  refute (f := 5) (r := [some 9, some 2, some 1]) (by decide) (by decide)

/-- **C07 (refuted).** Iterating an empty list yields one `None`. -/
theorem C07_iter_empty_refuted : ¬ SequenceClaim ([] : List (Op Nat)) :=
  refute (f := 0) (r := [none]) (by decide) (by decide)

/-- **C07 (refuted).** `remove` of the only item leaves a head without links: iterating raises, for any fuel. -/
theorem C07_remove_only_refuted : ∀ f, toList (run (empty : CDLL Nat) [Op.append 1, .remove 1]) f = none :=
  fun _ => rfl

/-- **C07 (refuted).** `remove` of a missing item raises nothing and destroys the head's links. -/
theorem C07_remove_missing_refuted :
    (∃ s', call (run (empty : CDLL Nat) [Op.append 1, .append 2]) (.remove 3) = .ok s') ∧
    ∀ f, toList (run (empty : CDLL Nat) [Op.append 1, .append 2, .remove 3]) f = none :=
  ⟨⟨_, rfl⟩, fun _ => rfl⟩

/-- **C07 (refuted).** After `replace_node` the new node's `previous` is itself, so removing it does not remove it. -/
theorem C07_replace_then_remove_refuted :
    ¬ SequenceClaim [Op.append 1, .append 2, .append 3, .replaceNode 1 9, .removeByIndex 1] :=
  refute (f := 9) (r := [some 1, some 9, some 3]) (by decide) (by decide)

/-- **C07 (refuted).** A negative index beyond the front returns the head's value instead of raising. -/
theorem C07_negative_index_refuted : get (run (empty : CDLL Nat) [Op.append 1, .append 2]) (-5) = .ok (some 1) := by
  rfl

end Verif.Cdll
