import Verif.Avl.Model
import Mathlib.Data.List.Basic
import Mathlib.Tactic.Linarith
import Mathlib.Tactic.Ring

namespace Verif.Avl
variable {K D : Type}
namespace Tree

/-- Cached fields are right and the tree is balanced, at every wrapper. -/
def WF : Tree K D → Prop
  | nil h b => h = -1 ∧ b = 0
  | node h b l _ _ r =>
    h = 1 + max l.height r.height ∧ b = l.height - r.height ∧ -1 ≤ b ∧ b ≤ 1 ∧ WF l ∧ WF r

/-- Node with freshly computed cached fields. -/
def mk (l : Tree K D) (k : K) (d : D) (r : Tree K D) : Tree K D :=
  node (1 + max l.height r.height) (l.height - r.height) l k d r

@[simp] theorem height_nil (h b : Int) : (nil h b : Tree K D).height = h := rfl
@[simp] theorem height_node (h b : Int) (l : Tree K D) (k : K) (d : D) (r : Tree K D) :
    (node h b l k d r).height = h := rfl
@[simp] theorem balance_node (h b : Int) (l : Tree K D) (k : K) (d : D) (r : Tree K D) :
    (node h b l k d r).balance = b := rfl

@[simp] theorem height_updateBalances (t : Tree K D) : t.updateBalances.height = t.height := by
  cases t <;> rfl

theorem refresh_node (h b : Int) (l : Tree K D) (k : K) (d : D) (r : Tree K D) :
    refresh (node h b l k d r) = mk (refresh l) k d (refresh r) := by
  simp [refresh, updateHeights, updateBalances, mk]

theorem refresh_nil (h b : Int) : refresh (nil h b : Tree K D) = nil (-1) 0 := rfl

theorem refresh_rewrap (h b : Int) (t : Tree K D) : refresh (rewrap h b t) = refresh t := by
  cases t with
  | nil => rfl
  | node => simp [rewrap, refresh_node]

theorem WF.refresh {t : Tree K D} (h : WF t) : t.refresh = t := by
  induction t with
  | nil h b => obtain ⟨rfl, rfl⟩ := h; rfl
  | node h b l k d r ihl ihr =>
    obtain ⟨h1, h2, _, _, hl, hr⟩ := h
    rw [refresh_node, ihl hl, ihr hr, mk, h1, h2]

theorem refresh_mk_rewrap {h b : Int} {t : Tree K D} (ht : WF t) : refresh (rewrap h b t) = t := by
  rw [refresh_rewrap, ht.refresh]

theorem height_ge {t : Tree K D} (h : WF t) : -1 ≤ t.height := by
  induction t with
  | nil h b => obtain ⟨rfl, rfl⟩ := h; simp
  | node h b l k d r ihl ihr =>
    obtain ⟨h1, _, _, _, hl, hr⟩ := h
    have := ihl hl
    simp only [height_node]
    omega

theorem updateBH_node (h b : Int) (l : Tree K D) (k : K) (d : D) (r : Tree K D) :
    updateBalance (updateHeight (node h b l k d r)) = mk l k d r := rfl

theorem WF.mk {l r : Tree K D} {k : K} {d : D} (hl : WF l) (hr : WF r)
    (h1 : l.height - r.height ≤ 1) (h2 : -1 ≤ l.height - r.height) : WF (mk l k d r) :=
  ⟨rfl, rfl, h2, h1, hl, hr⟩

theorem inorder_rewrap (h b : Int) (t : Tree K D) : (rewrap h b t).inorder = t.inorder := by
  cases t <;> rfl

theorem inorder_mk (l : Tree K D) (k : K) (d : D) (r : Tree K D) :
    (mk l k d r).inorder = l.inorder ++ (k, d) :: r.inorder := rfl

theorem height_mk (l : Tree K D) (k : K) (d : D) (r : Tree K D) :
    (mk l k d r).height = 1 + max l.height r.height := rfl

theorem balance_mk (l : Tree K D) (k : K) (d : D) (r : Tree K D) :
    (mk l k d r).balance = l.height - r.height := rfl

theorem loop_done {t : Tree K D} (h1 : -1 ≤ t.balance) (h2 : t.balance ≤ 1) (fuel : Nat) :
    loop (fuel + 1) t = some t := by
  have : ¬ (t.balance < -1 ∨ t.balance > 1) := by omega
  simp [loop, this]

/-- `rebalance` of a node whose subtrees are well formed and differ by at most two. -/
theorem rebalance_spec (fuel : Nat) (h b : Int) (l : Tree K D) (k : K) (d : D) (r : Tree K D)
    (hl : WF l) (hr : WF r) (h1 : l.height - r.height ≤ 2) (h2 : -2 ≤ l.height - r.height) :
    ∃ t, rebalance (fuel + 2) (node h b l k d r) = some t ∧ WF t ∧ t.inorder = l.inorder ++ (k, d) :: r.inorder ∧
      t.height ≤ 1 + max l.height r.height ∧ max l.height r.height ≤ t.height ∧
      (l.height - r.height ≤ 1 → -1 ≤ l.height - r.height → t.height = 1 + max l.height r.height) := by
  rw [rebalance, updateBH_node]
  by_cases hhi : l.height - r.height = 2
  · -- left heavy
    cases l with
    | nil hh bb =>
      obtain ⟨rfl, rfl⟩ := hl
      have := height_ge hr
      simp only [height_nil, height_node] at hhi; omega
    | node hh bb a y dy z =>
      obtain ⟨e1, e2, e3, e4, ha, hz⟩ := hl
      simp only [height_nil, height_node] at hhi h1 h2 ⊢
      have hb : (mk (node hh bb a y dy z) k d r).balance = 2 := by
        simp only [balance_mk, height_node]; omega
      by_cases hneg : bb < 0
      · -- left-right
        cases z with
        | nil h0 b0 =>
          obtain ⟨rfl, rfl⟩ := hz
          have := height_ge ha
          simp only [height_nil, height_node] at e2; omega
        | node hz0 bz0 B x dx C =>
          obtain ⟨f1, f2, f3, f4, hB, hC⟩ := hz
          simp only [height_nil, height_node] at e1 e2
          have hfix : fixLeft (mk (node hh bb a y dy (node hz0 bz0 B x dx C)) k d r) =
              some (mk (mk a y dy B) x dx (mk C k d r)) := by
            simp only [mk, fixLeft, balance_node, if_pos hneg, rotateLeft, Option.map_some]
            rw [refresh_node, refresh_node, refresh_node, refresh_mk_rewrap hB, ha.refresh, hC.refresh, hr.refresh]
            simp only [mk, rotateRight, Option.map_some]
            rw [refresh_node, refresh_node, refresh_node, refresh_mk_rewrap hC, ha.refresh, hB.refresh,
              hr.refresh]
            exact if_pos hneg
          have hw : WF (mk (mk a y dy B) x dx (mk C k d r)) := by
            refine WF.mk (WF.mk ha hB ?_ ?_) (WF.mk hC hr ?_ ?_) ?_ ?_ <;>
              (try simp only [height_mk]) <;> omega
          refine ⟨mk (mk a y dy B) x dx (mk C k d r), ?_, hw, ?_, ?_, ?_, ?_⟩
          · have hb' : (mk (mk a y dy B) x dx (mk C k d r)).balance = 0 := by
              simp only [balance_mk, height_mk]; omega
            rw [loop, hb]
            simp only [show (2 : Int) < -1 ∨ (2 : Int) > 1 by decide, if_true, show (2 : Int) > 1 by decide, hfix,
              hb', show ¬ ((0 : Int) < -1) by decide, if_false]
            exact loop_done (by rw [hb']; decide) (by rw [hb']; decide) _
          · simp [inorder_mk, inorder]
          · simp only [height_mk, height_node]; omega
          · simp only [height_mk, height_node]; omega
          · intro; omega
      · -- left-left
        have hfix : fixLeft (mk (node hh bb a y dy z) k d r) = some (mk a y dy (mk z k d r)) := by
          simp only [mk, fixLeft, balance_node, if_neg hneg, rotateRight, Option.map_some]
          rw [refresh_node, refresh_node, refresh_mk_rewrap hz, ha.refresh, hr.refresh]
          exact if_neg hneg
        have hw : WF (mk a y dy (mk z k d r)) := by
          refine WF.mk ha (WF.mk hz hr ?_ ?_) ?_ ?_ <;> (try simp only [height_mk]) <;> omega
        refine ⟨mk a y dy (mk z k d r), ?_, hw, ?_, ?_, ?_, ?_⟩
        · have hb' : -1 ≤ (mk a y dy (mk z k d r)).balance ∧ (mk a y dy (mk z k d r)).balance ≤ 1 := by
            simp only [balance_mk, height_mk]; omega
          rw [loop, hb]
          simp only [show (2 : Int) < -1 ∨ (2 : Int) > 1 by decide, if_true, show (2 : Int) > 1 by decide, hfix,
            show ¬ ((mk a y dy (mk z k d r)).balance < -1) by omega, if_false]
          exact loop_done hb'.1 hb'.2 _
        · simp [inorder_mk, inorder]
        · simp only [height_mk]; omega
        · simp only [height_mk]; omega
        · intro; omega
  · by_cases hlo : l.height - r.height = -2
    · cases r with
      | nil hh bb =>
        obtain ⟨rfl, rfl⟩ := hr
        have := height_ge hl
        simp only [height_nil, height_node] at hlo this; omega
      | node hh bb z y dy a =>
        obtain ⟨e1, e2, e3, e4, hz, ha⟩ := hr
        simp only [height_nil, height_node] at hlo h1 h2 hhi ⊢
        have hb : (mk l k d (node hh bb z y dy a)).balance = -2 := by
          simp only [balance_mk, height_node]; omega
        by_cases hpos : bb > 0
        · cases z with
          | nil h0 b0 =>
            obtain ⟨rfl, rfl⟩ := hz
            have := height_ge ha
            simp only [height_nil, height_node] at e2; omega
          | node hz0 bz0 B x dx C =>
            obtain ⟨f1, f2, f3, f4, hB, hC⟩ := hz
            simp only [height_nil, height_node] at e1 e2
            have hfix : fixRight (mk l k d (node hh bb (node hz0 bz0 B x dx C) y dy a)) =
                some (mk (mk l k d B) x dx (mk C y dy a)) := by
              simp only [mk, fixRight, balance_node, if_pos hpos, rotateRight, Option.map_some]
              rw [refresh_node, refresh_node, refresh_node, refresh_mk_rewrap hC, ha.refresh, hB.refresh,
                hl.refresh]
              simp only [mk, rotateLeft, Option.map_some]
              rw [refresh_node, refresh_node, refresh_node, refresh_mk_rewrap hB, ha.refresh, hC.refresh,
                hl.refresh]
              exact if_pos hpos
            have hw : WF (mk (mk l k d B) x dx (mk C y dy a)) := by
              refine WF.mk (WF.mk hl hB ?_ ?_) (WF.mk hC ha ?_ ?_) ?_ ?_ <;>
                (try simp only [height_mk]) <;> omega
            refine ⟨_, ?_, hw, ?_, ?_, ?_, ?_⟩
            · have hb' : (mk (mk l k d B) x dx (mk C y dy a)).balance = 0 := by
                simp only [balance_mk, height_mk]; omega
              rw [loop, hb]
              simp only [show (-2 : Int) < -1 ∨ (-2 : Int) > 1 by decide, if_true, show ¬ ((-2 : Int) > 1) by decide,
                if_false, hb, show (-2 : Int) < -1 by decide, hfix]
              exact loop_done (by rw [hb']; decide) (by rw [hb']; decide) _
            · simp [inorder_mk, inorder]
            · simp only [height_mk, height_node]; omega
            · simp only [height_mk, height_node]; omega
            · intro; omega
        · have hfix : fixRight (mk l k d (node hh bb z y dy a)) = some (mk (mk l k d z) y dy a) := by
            simp only [mk, fixRight, balance_node, if_neg hpos, rotateLeft, Option.map_some]
            rw [refresh_node, refresh_node, refresh_mk_rewrap hz, ha.refresh, hl.refresh]
            exact if_neg hpos
          have hw : WF (mk (mk l k d z) y dy a) := by
            refine WF.mk (WF.mk hl hz ?_ ?_) ha ?_ ?_ <;> (try simp only [height_mk]) <;> omega
          refine ⟨_, ?_, hw, ?_, ?_, ?_, ?_⟩
          · have hb' : -1 ≤ (mk (mk l k d z) y dy a).balance ∧ (mk (mk l k d z) y dy a).balance ≤ 1 := by
              simp only [balance_mk, height_mk]; omega
            rw [loop, hb]
            simp only [show (-2 : Int) < -1 ∨ (-2 : Int) > 1 by decide, if_true, show ¬ ((-2 : Int) > 1) by decide,
              if_false, hb, show (-2 : Int) < -1 by decide, hfix]
            exact loop_done hb'.1 hb'.2 _
          · simp [inorder_mk, inorder]
          · simp only [height_mk, height_node]; omega
          · simp only [height_mk, height_node]; omega
          · intro; omega
    · refine ⟨mk l k d r, ?_, WF.mk hl hr (by omega) (by omega), rfl, le_rfl, ?_, fun _ _ => rfl⟩
      · exact loop_done (by rw [balance_mk]; omega) (by rw [balance_mk]; omega) _
      · rw [height_mk]; omega

end Tree
end Verif.Avl
