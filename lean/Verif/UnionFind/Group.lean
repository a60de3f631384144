import Verif.UnionFind.Lemmas
import Mathlib.Data.List.Dedup
import Mathlib.Data.List.Nodup

namespace Verif.UnionFind
open Relation

/-- Arguments of a call are valid indices. -/
def Op.inRange (n : Nat) : Op → Prop
  | .union x y => x < n ∧ y < n
  | .find x => x < n

theorem same_of_inv {n s} (h : Inv n s) {u : Nat} (hu : u < n) : Same s u u := by
  obtain ⟨r, hr⟩ := h.root hu
  exact ⟨r, hr, hr⟩

theorem Same.symm {s u v} (h : Same s u v) : Same s v u := by
  obtain ⟨r, h1, h2⟩ := h; exact ⟨r, h2, h1⟩

theorem Same.trans {s u v w} (h : Same s u v) (h' : Same s v w) : Same s u w := by
  obtain ⟨r, h1, h2⟩ := h
  obtain ⟨r', h3, h4⟩ := h'
  have := h2.unique h3; subst this
  exact ⟨r, h1, h4⟩

theorem eqvGen_le {n s} (_h : Inv n s) {R : Nat → Nat → Prop}
    (hR : ∀ a b, R a b → a < n ∧ b < n ∧ Same s a b) {u v : Nat} (huv : EqvGen R u v) :
    (u < n ∧ v < n ∧ Same s u v) ∨ u = v := by
  induction huv with
  | rel a b hab => exact .inl (hR a b hab)
  | refl a => exact .inr rfl
  | symm a b _ ih =>
    rcases ih with ⟨h1, h2, h3⟩ | rfl
    · exact .inl ⟨h2, h1, h3.symm⟩
    · exact .inr rfl
  | trans a b c _ _ ih1 ih2 =>
    rcases ih1 with ⟨h1, h2, h3⟩ | rfl
    · rcases ih2 with ⟨h4, h5, h6⟩ | rfl
      · exact .inl ⟨h1, h5, h3.trans h6⟩
      · exact .inl ⟨h1, h2, h3⟩
    · exact ih2

theorem run_spec {n depth : Nat} (hd : Nat.log 2 n + 1 ≤ depth) (ops : List Op) :
    ∀ (s : UF) (R : Nat → Nat → Prop), Inv n s → (∀ a b, R a b → a < n ∧ b < n) →
      (∀ u v, u < n → v < n → (Same s u v ↔ EqvGen R u v)) →
      (∀ o ∈ ops, o.inRange n) →
      ∃ s', run depth s ops = some s' ∧ Inv n s' ∧
        ∀ u v, u < n → v < n → (Same s' u v ↔ EqvGen (fun a b => R a b ∨ Op.union a b ∈ ops) u v) := by
  induction ops with
  | nil =>
    intro s R h _ hs _
    exact ⟨s, rfl, h, by simpa using hs⟩
  | cons o os ih =>
    intro s R h hRn hs hops
    have hos : ∀ o ∈ os, o.inRange n := fun o ho => hops o (List.mem_cons_of_mem _ ho)
    cases o with
    | find x =>
      have hx : x < n := hops (.find x) List.mem_cons_self
      obtain ⟨r, s1, e, _, _, hi, _, hr⟩ := find_ok h hx hd
      obtain ⟨s', e', hi', hS⟩ := ih s1 R hi hRn (fun u v hu hv => by rw [same_congr hr]; exact hs u v hu hv) hos
      refine ⟨s', by simp [run, step, e, e'], hi', fun u v hu hv => ?_⟩
      rw [hS u v hu hv]
      simp
    | union x y =>
      obtain ⟨hx, hy⟩ : x < n ∧ y < n := hops (.union x y) List.mem_cons_self
      obtain ⟨s1, e, hi, hS1⟩ := union_spec h hx hy hd
      obtain ⟨s', e', hi', hS⟩ := ih s1 (fun a b => R a b ∨ (a = x ∧ b = y)) hi
        (by rintro a b (hab | ⟨rfl, rfl⟩); exacts [hRn a b hab, ⟨hx, hy⟩])
        (fun u v hu hv => by
          constructor
          · intro huv
            have mono : ∀ {a b}, a < n → b < n → Same s a b →
                EqvGen (fun a b => R a b ∨ (a = x ∧ b = y)) a b := fun ha hb hab =>
              ((hs _ _ ha hb).1 hab).mono (fun _ _ => .inl)
            have hxy : EqvGen (fun a b => R a b ∨ (a = x ∧ b = y)) x y := .rel _ _ (.inr ⟨rfl, rfl⟩)
            rcases (hS1 u v).1 huv with h1 | ⟨h1, h2⟩ | ⟨h1, h2⟩
            · exact mono hu hv h1
            · exact (mono hu hx h1).trans _ _ _ (hxy.trans _ _ _ (mono hy hv h2))
            · exact (mono hu hy h1).trans _ _ _ ((hxy.symm _ _).trans _ _ _ (mono hx hv h2))
          · intro huv
            rcases eqvGen_le hi (R := fun a b => R a b ∨ (a = x ∧ b = y)) (fun a b hab => by
              rcases hab with hab | ⟨rfl, rfl⟩
              · obtain ⟨ha, hb⟩ := hRn a b hab
                exact ⟨ha, hb, (hS1 a b).2 (.inl ((hs a b ha hb).2 (.rel _ _ hab)))⟩
              · exact ⟨hx, hy, (hS1 _ _).2 (.inr (.inl ⟨same_of_inv h hx, same_of_inv h hy⟩))⟩) huv
              with ⟨_, _, h3⟩ | rfl
            · exact h3
            · exact same_of_inv hi hu) hos
      refine ⟨s', by simp [run, step, e, e'], hi', fun u v hu hv => ?_⟩
      rw [hS u v hu hv]
      simp only [List.mem_cons, Op.union.injEq]
      constructor <;> intro h <;> refine h.mono (fun a b => ?_) <;> tauto

theorem run_init {n depth : Nat} (hd : Nat.log 2 n + 1 ≤ depth) (ops : List Op)
    (hops : ∀ o ∈ ops, o.inRange n) :
    ∃ s', run depth (UF.init n) ops = some s' ∧ Inv n s' ∧
      ∀ u v, u < n → v < n → (Same s' u v ↔ EqvGen (fun a b => Op.union a b ∈ ops) u v) := by
  obtain ⟨s', h1, h2, h3⟩ := run_spec hd ops (UF.init n) (fun _ _ => False) (init_inv n) (by simp)
    (fun u v hu hv => by
      constructor
      · rintro ⟨r, h1, h2⟩
        have hu : u = r := (h1.unique (.base rfl)).symm
        have hv : v = r := (h2.unique (.base rfl)).symm
        subst hu; subst hv; exact .refl _
      · intro h
        rcases eqvGen_le (init_inv n) (R := fun _ _ => False) (by simp) h with ⟨_, _, h3⟩ | rfl
        · exact h3
        · exact same_of_inv (init_inv n) hu) hops
  exact ⟨s', h1, h2, by simpa using h3⟩

/-! ### Insertion-ordered grouping -/

section dict
variable {α β : Type} [DecidableEq α]

/-- Grouping a list of key/value pairs with `dictAppend`. -/
def groupPairs (l : List (α × β)) : List (α × List β) :=
  l.foldl (fun d p => dictAppend d p.1 p.2) []

/-- Values filed under `k`. -/
def valuesAt (l : List (α × β)) (k : α) : List β := (l.filter (fun p => p.1 = k)).map Prod.snd

theorem dictAppend_keys (d : List (α × List β)) (k : α) (v : β) :
    (dictAppend d k v).map Prod.fst = if k ∈ d.map Prod.fst then d.map Prod.fst else d.map Prod.fst ++ [k] := by
  induction d with
  | nil => simp [dictAppend]
  | cons p d ih =>
    obtain ⟨k', vs⟩ := p
    by_cases h : k' = k
    · subst h; simp [dictAppend]
    · have h' : k ≠ k' := Ne.symm h
      simp only [dictAppend, if_neg h, List.map_cons, List.mem_cons, h', false_or, ih]
      split_ifs <;> simp

theorem mem_dictAppend (d : List (α × List β)) (hd : (d.map Prod.fst).Nodup) (k : α) (v : β) (q : α) (ws : List β) :
    (q, ws) ∈ dictAppend d k v ↔
      (q ≠ k ∧ (q, ws) ∈ d) ∨ (q = k ∧ ((∃ vs, (k, vs) ∈ d ∧ ws = vs ++ [v]) ∨ (k ∉ d.map Prod.fst ∧ ws = [v]))) := by
  induction d with
  | nil => simp [dictAppend]
  | cons p d ih =>
    obtain ⟨k', vs⟩ := p
    simp only [List.map_cons, List.nodup_cons] at hd
    by_cases h : k' = k
    · subst h
      have hnk : ∀ vs, (k', vs) ∉ d := fun vs hv => hd.1 (List.mem_map.2 ⟨_, hv, rfl⟩)
      simp only [dictAppend, if_true, List.mem_cons, Prod.mk.injEq, List.map_cons]
      constructor
      · rintro (⟨rfl, rfl⟩ | h)
        · exact .inr ⟨rfl, .inl ⟨vs, .inl ⟨trivial, rfl⟩, rfl⟩⟩
        · refine .inl ⟨?_, .inr h⟩
          rintro rfl; exact hnk _ h
      · rintro (⟨h1, ⟨h2, _⟩ | h2⟩ | ⟨rfl, ⟨vs', ⟨_, rfl⟩ | h2, rfl⟩ | ⟨h2, _⟩⟩)
        · exact absurd h2 h1
        · exact .inr h2
        · exact .inl ⟨rfl, rfl⟩
        · exact absurd h2 (hnk _)
        · simp at h2
    · simp only [dictAppend, if_neg h, List.mem_cons, Prod.mk.injEq, ih hd.2, List.map_cons]
      have h' : k ≠ k' := Ne.symm h
      constructor
      · rintro (⟨rfl, rfl⟩ | ⟨h1, h2⟩ | ⟨rfl, ⟨vs', h1, rfl⟩ | ⟨h1, rfl⟩⟩)
        · exact .inl ⟨h, .inl ⟨rfl, rfl⟩⟩
        · exact .inl ⟨h1, .inr h2⟩
        · exact .inr ⟨rfl, .inl ⟨vs', .inr h1, rfl⟩⟩
        · exact .inr ⟨rfl, .inr ⟨by simp [h', h1], rfl⟩⟩
      · rintro (⟨h1, ⟨rfl, rfl⟩ | h2⟩ | ⟨rfl, ⟨vs', ⟨h1, _⟩ | h1, rfl⟩ | ⟨h1, rfl⟩⟩)
        · exact .inl ⟨rfl, rfl⟩
        · exact .inr (.inl ⟨h1, h2⟩)
        · exact absurd h1 h'
        · exact .inr (.inr ⟨rfl, .inl ⟨vs', h1, rfl⟩⟩)
        · exact .inr (.inr ⟨rfl, .inr ⟨by simpa [h'] using h1, rfl⟩⟩)

theorem groupPairs_append (l : List (α × β)) (p : α × β) :
    groupPairs (l ++ [p]) = dictAppend (groupPairs l) p.1 p.2 := by
  simp [groupPairs]

/-- The grouping dict: keys without repetition, every entry holds exactly the values filed under its key,
in order, and no entry is empty. -/
theorem groupPairs_spec (l : List (α × β)) :
    ((groupPairs l).map Prod.fst).Nodup ∧
    (∀ k, k ∈ (groupPairs l).map Prod.fst ↔ k ∈ l.map Prod.fst) ∧
    (∀ k vs, (k, vs) ∈ groupPairs l → vs = valuesAt l k) := by
  induction l using List.reverseRecOn with
  | nil => simp [groupPairs]
  | append_singleton l p ih =>
    obtain ⟨h1, h2, h3⟩ := ih
    obtain ⟨k, v⟩ := p
    rw [groupPairs_append]
    refine ⟨?_, ?_, ?_⟩
    · rw [dictAppend_keys]
      split_ifs with h
      · exact h1
      · rw [List.nodup_append]
        refine ⟨h1, by simp, ?_⟩
        intro a ha b hb
        simp at hb; subst hb
        rintro rfl; exact h ha
    · intro q
      rw [dictAppend_keys]
      split_ifs with h
      · rw [h2]
        have hk : k ∈ l.map Prod.fst := (h2 k).1 h
        simp only [List.map_append, List.mem_append, List.map_cons, List.map_nil, List.mem_singleton]
        constructor
        · exact .inl
        · rintro (h | rfl); exacts [h, hk]
      · simp only [List.map_append, List.mem_append, List.map_cons, List.map_nil, List.mem_singleton, h2]
    · intro q ws hq
      rw [mem_dictAppend _ h1] at hq
      rcases hq with ⟨hne, hq⟩ | ⟨rfl, ⟨vs, hvs, rfl⟩ | ⟨hn, rfl⟩⟩
      · rw [h3 q ws hq]
        simp [valuesAt, List.filter_append, Ne.symm hne]
      · rw [h3 _ _ hvs]
        simp [valuesAt, List.filter_append]
      · have : valuesAt l q = [] := by
          simp only [valuesAt, List.map_eq_nil_iff, List.filter_eq_nil_iff]
          intro p hp hpq
          exact hn ((h2 q).2 (List.mem_map.2 ⟨p, hp, by simpa using hpq⟩))
        simp only [valuesAt, List.filter_append, List.map_append] at this ⊢
        simp [this]

theorem dictAppend_perm (d : List (α × List β)) (k : α) (v : β) :
    ((dictAppend d k v).map Prod.snd).flatten.Perm ((d.map Prod.snd).flatten ++ [v]) := by
  induction d with
  | nil => simp [dictAppend]
  | cons p d ih =>
    obtain ⟨k', vs⟩ := p
    by_cases h : k' = k
    · simp only [dictAppend, if_pos h, List.map_cons, List.flatten_cons, List.append_assoc]
      exact List.Perm.append_left _ List.perm_append_comm
    · simp only [dictAppend, if_neg h, List.map_cons, List.flatten_cons, List.append_assoc]
      exact List.Perm.append_left _ ih

theorem groupPairs_perm (l : List (α × β)) : ((groupPairs l).map Prod.snd).flatten.Perm (l.map Prod.snd) := by
  induction l using List.reverseRecOn with
  | nil => simp [groupPairs]
  | append_singleton l p ih =>
    rw [groupPairs_append]
    refine (dictAppend_perm _ _ _).trans ?_
    simpa using ih.append_right [p.2]

theorem dictAppend_map {γ : Type} (f : β → γ) (d : List (α × List β)) (k : α) (v : β) :
    dictAppend (d.map (fun p => (p.1, p.2.map f))) k (f v) = (dictAppend d k v).map (fun p => (p.1, p.2.map f)) := by
  induction d with
  | nil => simp [dictAppend]
  | cons p d ih =>
    obtain ⟨k', vs⟩ := p
    by_cases h : k' = k <;> simp [dictAppend, h, ih]

theorem groupPairs_map {γ : Type} (f : β → γ) (l : List (α × β)) :
    groupPairs (l.map (fun p => (p.1, f p.2))) = (groupPairs l).map (fun p => (p.1, p.2.map f)) := by
  induction l using List.reverseRecOn with
  | nil => simp [groupPairs]
  | append_singleton l p ih =>
    rw [List.map_append, List.map_cons, List.map_nil, groupPairs_append, groupPairs_append, ih, dictAppend_map]

end dict

/-! ### `buildMap` is a grouping -/

/-- The (digit, index) pairs in the order the code files them. -/
def digitPairs : Nat → List (List Int) → List (Int × Nat)
  | _, [] => []
  | i, t :: ts => t.map (fun num => (num, i)) ++ digitPairs (i + 1) ts

theorem addTuple_eq (d : List (Int × List Nat)) (i : Nat) (t : List Int) :
    addTuple d i t = (t.map (fun num => (num, i))).foldl (fun d p => dictAppend d p.1 p.2) d := by
  simp [addTuple, List.foldl_map]

theorem buildMap_eq (ts : List (List Int)) : ∀ (d : List (Int × List Nat)) (i : Nat),
    buildMap d i ts = (digitPairs i ts).foldl (fun d p => dictAppend d p.1 p.2) d := by
  induction ts with
  | nil => intro d i; rfl
  | cons t ts ih =>
    intro d i
    simp [buildMap, digitPairs, List.foldl_append, ih, addTuple_eq]

theorem mem_digitPairs (ts : List (List Int)) : ∀ (i : Nat) (num : Int) (j : Nat),
    (num, j) ∈ digitPairs i ts ↔ i ≤ j ∧ ∃ t, ts[j - i]? = some t ∧ num ∈ t := by
  induction ts with
  | nil => intro i num j; simp [digitPairs]
  | cons t ts ih =>
    intro i num j
    simp only [digitPairs, List.mem_append, List.mem_map, Prod.mk.injEq, ih]
    constructor
    · rintro (⟨a, ha, rfl, rfl⟩ | ⟨h, t', h1, h2⟩)
      · exact ⟨le_rfl, t, by simp, ha⟩
      · refine ⟨by omega, t', ?_, h2⟩
        obtain ⟨m, rfl⟩ : ∃ m, j = i + 1 + m := ⟨j - (i + 1), by omega⟩
        rw [show i + 1 + m - i = m + 1 by omega]
        simpa using h1
    · rintro ⟨h, t', h1, h2⟩
      by_cases hij : j = i
      · subst hij
        simp at h1; subst h1
        exact .inl ⟨num, h2, rfl, rfl⟩
      · right
        refine ⟨by omega, t', ?_, h2⟩
        obtain ⟨m, rfl⟩ : ∃ m, j = i + 1 + m := ⟨j - (i + 1), by omega⟩
        rw [show i + 1 + m - i = m + 1 by omega] at h1
        simpa using h1

/-! ### The unions issued by `group_tuples` -/

/-- The calls issued for the digit map. -/
def digitOps : List (Int × List Nat) → List Op
  | [] => []
  | (_, []) :: rest => digitOps rest
  | (_, f :: os) :: rest => os.map (Op.union f) ++ digitOps rest

theorem run_append (depth : Nat) (a b : List Op) : ∀ s, run depth s (a ++ b) =
    match run depth s a with
    | none => none
    | some s' => run depth s' b := by
  induction a with
  | nil => intro s; rfl
  | cons o os ih =>
    intro s
    simp only [List.cons_append, run]
    cases step depth s o with
    | none => rfl
    | some s' => exact ih s'

theorem unionAll_eq (depth first : Nat) (js : List Nat) : ∀ s,
    unionAll depth s first js = run depth s (js.map (Op.union first)) := by
  induction js with
  | nil => intro s; rfl
  | cons j js ih =>
    intro s
    simp only [unionAll, List.map_cons, run, step]
    cases s.union depth first j with
    | none => rfl
    | some s' => exact ih s'

theorem unionDigits_eq (depth : Nat) (d : List (Int × List Nat)) (hd : ∀ p ∈ d, p.2 ≠ []) : ∀ s,
    unionDigits depth s d = run depth s (digitOps d) := by
  induction d with
  | nil => intro s; rfl
  | cons p d ih =>
    intro s
    obtain ⟨num, idx⟩ := p
    cases idx with
    | nil => exact absurd rfl (hd _ List.mem_cons_self)
    | cons f os =>
      simp only [unionDigits, digitOps, run_append, unionAll_eq]
      cases run depth s (os.map (Op.union f)) with
      | none => rfl
      | some s' => exact ih (fun p hp => hd p (List.mem_cons_of_mem _ hp)) s'

theorem mem_digitOps (d : List (Int × List Nat)) (o : Op) :
    o ∈ digitOps d ↔ ∃ num f os j, (num, f :: os) ∈ d ∧ j ∈ os ∧ o = .union f j := by
  induction d with
  | nil => simp [digitOps]
  | cons p d ih =>
    obtain ⟨num, idx⟩ := p
    cases idx with
    | nil => simp [digitOps, ih]
    | cons f os =>
      simp only [digitOps, List.mem_append, List.mem_map, ih, List.mem_cons, Prod.mk.injEq]
      constructor
      · rintro (⟨j, hj, rfl⟩ | ⟨num', f', os', j, h1, h2, rfl⟩)
        · exact ⟨num, f, os, j, .inl ⟨rfl, rfl⟩, hj, rfl⟩
        · exact ⟨num', f', os', j, .inr h1, h2, rfl⟩
      · rintro ⟨num', f', os', j, h1 | h1, h2, rfl⟩
        · obtain ⟨rfl, h1⟩ := h1
          simp only [List.cons.injEq] at h1
          obtain ⟨rfl, rfl⟩ := h1
          exact .inl ⟨j, h2, rfl⟩
        · exact .inr ⟨num', f', os', j, h1, h2, rfl⟩

/-! ### `gather` -/

theorem gather_spec {n depth : Nat} (hd : Nat.log 2 n + 1 ≤ depth) (root : Nat → Nat) (ts : List (List Int)) :
    ∀ (s : UF) (g) (i : Nat), Inv n s → (∀ x, x < n → Root s.parent x (root x)) → i + ts.length ≤ n →
      gather depth s g i ts =
        some (((List.range' i ts.length).zip ts).foldl (fun d p => dictAppend d (root p.1) p.2) g) := by
  induction ts with
  | nil => intro s g i _ _ _; rfl
  | cons t ts ih =>
    intro s g i h hroot hi
    simp only [List.length_cons] at hi
    obtain ⟨r, s1, e, hr, _, hi1, _, hr1⟩ := find_ok h (x := i) (by omega) hd
    have : r = root i := hr.unique (hroot i (by omega))
    subst this
    simp only [gather, e]
    rw [ih s1 _ (i + 1) hi1 (fun x hx => (hr1 _ _).2 (hroot x hx)) (by omega)]
    simp [List.range'_succ]

end Verif.UnionFind
