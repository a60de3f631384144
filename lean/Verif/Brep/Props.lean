import Verif.Brep.Model
import Mathlib.Data.List.Basic
import Mathlib.Data.Fintype.Pigeonhole
import Mathlib.Tactic.Tauto

/-! # C49, C110: registries of the boundary representation -/

set_option linter.unusedSectionVars false

namespace Verif.Brep

variable {G H : Type} [DecidableEq H]

theorem get_app {α : Type} {l : List α} {i : Nat} {x : α} (h : l[i]? = some x) (m : List α) :
    (l ++ m)[i]? = some x := by
  rw [List.getElem?_append_left (List.getElem?_eq_some_iff.1 h).1, h]

/-- Every list of the first state is an initial part of the list of the second. -/
structure Ext (s t : St G) : Prop where
  cont : ∀ k, s.cont k <+: t.cont k
  vertices : s.vertices <+: t.vertices
  edges : s.edges <+: t.edges
  loops : s.loops <+: t.loops
  faces : s.faces <+: t.faces

theorem Ext.refl (s : St G) : Ext s s :=
  ⟨fun _ => List.prefix_rfl, List.prefix_rfl, List.prefix_rfl, List.prefix_rfl, List.prefix_rfl⟩

theorem Ext.trans {s t u : St G} (a : Ext s t) (b : Ext t u) : Ext s u :=
  ⟨fun k => (a.cont k).trans (b.cont k), a.vertices.trans b.vertices, a.edges.trans b.edges,
   a.loops.trans b.loops, a.faces.trans b.faces⟩

theorem prefix_get {α : Type} {l m : List α} (h : l <+: m) {i : Nat} {x : α} (hx : l[i]? = some x) :
    m[i]? = some x := by
  obtain ⟨t, rfl⟩ := h
  exact get_app hx t

theorem cont_setCont (s : St G) (k k' : Kind) (l : List (Rep G)) :
    (s.setCont k l).cont k' = if k' = k then l else s.cont k' := by
  cases k <;> cases k' <;> rfl

theorem setCont_vertices (s : St G) (k : Kind) (l : List (Rep G)) :
    (s.setCont k l).vertices = s.vertices := by cases k <;> rfl
theorem setCont_edges (s : St G) (k : Kind) (l : List (Rep G)) :
    (s.setCont k l).edges = s.edges := by cases k <;> rfl
theorem setCont_loops (s : St G) (k : Kind) (l : List (Rep G)) :
    (s.setCont k l).loops = s.loops := by cases k <;> rfl
theorem setCont_faces (s : St G) (k : Kind) (l : List (Rep G)) :
    (s.setCont k l).faces = s.faces := by cases k <;> rfl

theorem ext_setCont (s : St G) (k : Kind) (m : List (Rep G)) : Ext s (s.setCont k (s.cont k ++ m)) := by
  refine ⟨?_, ?_, ?_, ?_, ?_⟩
  · intro k'
    rw [cont_setCont]
    split_ifs with h
    · rw [h]; exact List.prefix_append _ _
    · exact List.prefix_rfl
  · rw [setCont_vertices]
  · rw [setCont_edges]
  · rw [setCont_loops]
  · rw [setCont_faces]

/-- The two ends of a call: an object was found, or one was made. -/
theorem addGeom_cases (hash : G → H) (s : St G) (k : Kind) (g : G) (c : Bool) :
    (∃ i, c = true ∧ (s.cont k).findIdx? (fun x => decide (hash x.value = hash g)) = some i ∧
      addGeom hash s k g c = (i, s)) ∨
    ((c = true → (s.cont k).findIdx? (fun x => decide (hash x.value = hash g)) = none) ∧
      addGeom hash s k g c =
        ((s.cont k).length, s.setCont k (s.cont k ++ [⟨(s.cont k).length, g⟩]))) := by
  unfold addGeom
  dsimp only [Rep.eqv]
  cases c with
  | false => right; simp
  | true =>
    cases h : (s.cont k).findIdx? (fun x => decide (hash x.value = hash g)) with
    | none => right; simp [h]
    | some i => left; exact ⟨i, rfl, rfl, by simp [h]⟩

theorem addVertex_cases (hash : G → H) (s : St G) (r : Rep G) (c : Bool) :
    (∃ i, c = true ∧ s.vertices.findIdx? (fun v => decide (hash v.rep.value = hash r.value)) = some i ∧
      addVertex hash s r c = (i, s)) ∨
    ((c = true → s.vertices.findIdx? (fun v => decide (hash v.rep.value = hash r.value)) = none) ∧
      addVertex hash s r c =
        (s.vertices.length, { s with vertices := s.vertices ++ [⟨s.vertices.length, r⟩] })) := by
  unfold addVertex
  dsimp only [Rep.eqv]
  cases c with
  | false => right; simp
  | true =>
    cases h : s.vertices.findIdx? (fun v => decide (hash v.rep.value = hash r.value)) with
    | none => right; simp [h]
    | some i => left; exact ⟨i, rfl, rfl, by simp [h]⟩

theorem addEdge_cases (hash : G → H) (s : St G) (r : Rep G) (a b : Vtx G) (c : Bool) :
    (∃ i, c = true ∧ s.edges.findIdx? (sameEdge hash r a b) = some i ∧
      addEdge hash s r a b c = (i, s)) ∨
    ((c = true → s.edges.findIdx? (sameEdge hash r a b) = none) ∧
      addEdge hash s r a b c = (s.edges.length, { s with edges := s.edges ++ [⟨r, a, b⟩] })) := by
  unfold addEdge
  cases c with
  | false => right; simp
  | true =>
    cases h : s.edges.findIdx? (sameEdge hash r a b) with
    | none => right; simp [h]
    | some i => left; exact ⟨i, rfl, rfl, by simp [h]⟩

theorem addFace_cases (hash : G → H) (s : St G) (r : Rep G) (ls : List Nat) (c : Bool) :
    (∃ i, c = true ∧ scanFaces hash r ls 0 s.faces = .found i ∧ addFace hash s r ls c = (some i, s)) ∨
    (c = true ∧ scanFaces hash r ls 0 s.faces = .raised ∧ addFace hash s r ls c = (none, s)) ∨
    ((c = true → scanFaces hash r ls 0 s.faces = .missing) ∧ addFace hash s r ls c =
      (some s.faces.length, { s with faces := s.faces ++ [⟨r, ls⟩] })) := by
  unfold addFace
  cases c with
  | false => right; right; simp
  | true =>
    cases h : scanFaces hash r ls 0 s.faces with
    | found i => left; exact ⟨i, rfl, rfl, by simp⟩
    | raised => right; left; exact ⟨rfl, rfl, by simp⟩
    | missing => right; right; exact ⟨fun _ => rfl, by simp⟩

theorem exec_ext (hash : G → H) (s : St G) (c : Call G) : Ext s (exec hash s c).2 := by
  cases c with
  | geom k g c =>
    rw [exec]
    rcases addGeom_cases hash s k g c with ⟨i, -, -, h⟩ | ⟨-, h⟩
    · dsimp only; rw [h]; exact Ext.refl s
    · dsimp only; rw [h]; exact ext_setCont s k _
  | vertex p c =>
    rw [exec]
    cases s.points[p]? with
    | none => exact Ext.refl s
    | some r =>
      rcases addVertex_cases hash s r c with ⟨i, -, -, h⟩ | ⟨-, h⟩
      · dsimp only; rw [h]; exact Ext.refl s
      · dsimp only; rw [h]
        exact { Ext.refl s with cont := (Ext.refl s).cont, vertices := List.prefix_append _ _ }
  | edge c a b ch =>
    rw [exec]
    cases s.curves[c]? with
    | none => exact Ext.refl s
    | some r =>
      cases s.vertices[a]? with
      | none => exact Ext.refl s
      | some x =>
        cases s.vertices[b]? with
        | none => exact Ext.refl s
        | some y =>
          rcases addEdge_cases hash s r x y ch with ⟨i, -, -, h⟩ | ⟨-, h⟩
          · dsimp only; rw [h]; exact Ext.refl s
          · dsimp only; rw [h]
            exact { Ext.refl s with cont := (Ext.refl s).cont, edges := List.prefix_append _ _ }
  | loop es =>
    exact { Ext.refl s with cont := (Ext.refl s).cont, loops := List.prefix_append _ _ }
  | face f ls c =>
    rw [exec]
    cases s.surfaces[f]? with
    | none => exact Ext.refl s
    | some r =>
      rcases addFace_cases hash s r ls c with ⟨i, -, -, h⟩ | ⟨-, -, h⟩ | ⟨-, h⟩
      · dsimp only; rw [h]; exact Ext.refl s
      · dsimp only; rw [h]; exact Ext.refl s
      · dsimp only; rw [h]
        exact { Ext.refl s with cont := (Ext.refl s).cont, faces := List.prefix_append _ _ }

theorem run_ext (hash : G → H) (cs : List (Call G)) : ∀ s : St G, Ext s (run hash s cs) := by
  induction cs with
  | nil => intro s; exact Ext.refl s
  | cons c cs ih => intro s; exact (exec_ext hash s c).trans (ih _)

/-- Item `i` reports index `i`, and every object refers to objects that are registered. -/
structure WF (s : St G) : Prop where
  index : ∀ (k : Kind) (i : Nat) (r : Rep G), (s.cont k)[i]? = some r → r.index = i
  vertex : ∀ (i : Nat) (v : Vtx G), s.vertices[i]? = some v → v.id = i ∧ s.points[v.rep.index]? = some v.rep
  edge : ∀ e ∈ s.edges, s.curves[e.curve.index]? = some e.curve ∧
    s.vertices[e.start.id]? = some e.start ∧ s.vertices[e.stop.id]? = some e.stop
  face : ∀ f ∈ s.faces, s.surfaces[f.surf.index]? = some f.surf

theorem get_append_one {α : Type} {l : List α} {x y : α} {i : Nat} (h : (l ++ [x])[i]? = some y) :
    l[i]? = some y ∨ i = l.length ∧ y = x := by
  rcases Nat.lt_trichotomy i l.length with c | c | c
  · rw [List.getElem?_append_left c] at h; exact Or.inl h
  · subst c; simp at h; exact Or.inr ⟨rfl, h.symm⟩
  · rw [List.getElem?_eq_none (by simp; omega)] at h; cases h

theorem exec_wf (hash : G → H) {s : St G} (w : WF s) (c : Call G) : WF (exec hash s c).2 := by
  have e := exec_ext hash s c
  have keepV : ∀ v : Vtx G, s.points[v.rep.index]? = some v.rep →
      (exec hash s c).2.points[v.rep.index]? = some v.rep := fun v h => prefix_get (e.cont .point) h
  have keepE : ∀ x ∈ s.edges, (exec hash s c).2.curves[x.curve.index]? = some x.curve ∧
      (exec hash s c).2.vertices[x.start.id]? = some x.start ∧
      (exec hash s c).2.vertices[x.stop.id]? = some x.stop := by
    intro x hx
    obtain ⟨h1, h2, h3⟩ := w.edge x hx
    exact ⟨prefix_get (e.cont .curve) h1, prefix_get e.vertices h2, prefix_get e.vertices h3⟩
  have keepF : ∀ x ∈ s.faces, (exec hash s c).2.surfaces[x.surf.index]? = some x.surf :=
    fun x hx => prefix_get (e.cont .surface) (w.face x hx)
  clear e
  cases c with
  | geom k g c =>
    rw [exec] at keepV keepE keepF ⊢
    rcases addGeom_cases hash s k g c with ⟨i, -, -, h⟩ | ⟨-, h⟩
    · dsimp only; rw [h]; exact w
    · dsimp only at keepV keepE keepF ⊢
      rw [h] at keepV keepE keepF ⊢
      refine ⟨?_, ?_, ?_, ?_⟩
      · intro k' i r hr
        rw [cont_setCont] at hr
        split_ifs at hr with hk
        · rcases get_append_one hr with hr | ⟨rfl, rfl⟩
          · exact w.index k i r hr
          · rfl
        · exact w.index k' i r hr
      · intro i v hv
        rw [setCont_vertices] at hv
        exact ⟨(w.vertex i v hv).1, keepV v (w.vertex i v hv).2⟩
      · intro x hx
        rw [setCont_edges] at hx
        exact keepE x hx
      · intro x hx
        rw [setCont_faces] at hx
        exact keepF x hx
  | vertex p c =>
    rw [exec] at keepV keepE keepF ⊢
    cases hp : s.points[p]? with
    | none => exact w
    | some r =>
      rw [hp] at keepV keepE keepF
      rcases addVertex_cases hash s r c with ⟨i, -, -, h⟩ | ⟨-, h⟩
      · dsimp only; rw [h]; exact w
      · dsimp only at keepV keepE keepF ⊢
        rw [h] at keepV keepE keepF ⊢
        refine ⟨?_, ?_, keepE, keepF⟩
        · intro k i x hx; exact w.index k i x (by cases k <;> exact hx)
        · intro i v hv
          rcases get_append_one hv with hv | ⟨rfl, rfl⟩
          · exact w.vertex i v hv
          · exact ⟨rfl, by rw [w.index .point p r hp]; exact hp⟩
  | edge c a b ch =>
    rw [exec] at keepV keepE keepF ⊢
    cases hc : s.curves[c]? with
    | none => exact w
    | some r =>
      cases ha : s.vertices[a]? with
      | none => exact w
      | some x =>
        cases hb : s.vertices[b]? with
        | none => exact w
        | some y =>
          rcases addEdge_cases hash s r x y ch with ⟨i, -, -, h⟩ | ⟨-, h⟩
          · dsimp only; rw [h]; exact w
          · dsimp only; rw [h]
            refine ⟨?_, w.vertex, ?_, w.face⟩
            · intro k i x hx; exact w.index k i x (by cases k <;> exact hx)
            · intro z hz
              rw [List.mem_append, List.mem_singleton] at hz
              rcases hz with hz | rfl
              · exact w.edge z hz
              · refine ⟨?_, ?_, ?_⟩
                · rw [w.index .curve c r hc]; exact hc
                · rw [(w.vertex a x ha).1]; exact ha
                · rw [(w.vertex b y hb).1]; exact hb
  | loop es =>
    exact ⟨fun k i x hx => w.index k i x (by cases k <;> exact hx), w.vertex, w.edge, w.face⟩
  | face f ls c =>
    rw [exec] at keepV keepE keepF ⊢
    cases hf : s.surfaces[f]? with
    | none => exact w
    | some r =>
      rcases addFace_cases hash s r ls c with ⟨i, -, -, h⟩ | ⟨-, -, h⟩ | ⟨-, h⟩
      · dsimp only; rw [h]; exact w
      · dsimp only; rw [h]; exact w
      · dsimp only; rw [h]
        refine ⟨?_, w.vertex, w.edge, ?_⟩
        · intro k i x hx; exact w.index k i x (by cases k <;> exact hx)
        · intro z hz
          rw [List.mem_append, List.mem_singleton] at hz
          rcases hz with hz | rfl
          · exact w.face z hz
          · show s.surfaces[r.index]? = some r
            rw [w.index .surface f r hf]; exact hf

theorem run_wf (hash : G → H) (cs : List (Call G)) : ∀ {s : St G}, WF s → WF (run hash s cs) := by
  induction cs with
  | nil => intro s w; exact w
  | cons c cs ih => intro s w; exact ih (exec_wf hash w c)

theorem wf_empty : WF ({} : St G) := by
  refine ⟨?_, ?_, ?_, ?_⟩
  · intro k i r h; cases k <;> simp [St.cont] at h
  · intro i v h; simp at h
  · intro e h; simp at h
  · intro e h; simp at h

/-! ## C49 -/

/-- After every history of calls, checked or not: item `i` of a container reports index `i`, the
points of vertices, curves and ends of edges and surfaces of faces are the registered ones. -/
theorem C49_index (hash : G → H) (cs : List (Call G)) : WF (run hash {} cs) :=
  run_wf hash cs wf_empty

/-- A call only appends. -/
theorem C49_append (hash : G → H) (s : St G) (c : Call G) : Ext s (exec hash s c).2 :=
  exec_ext hash s c

theorem findIdx?_prefix {α : Type} {l m : List α} (h : l <+: m) {p : α → Bool} {i : Nat}
    (hi : l.findIdx? p = some i) : m.findIdx? p = some i := by
  obtain ⟨t, rfl⟩ := h
  rw [List.findIdx?_append, hi]
  rfl

theorem findIdx?_append_new {α : Type} {l : List α} {x : α} {p : α → Bool}
    (h : l.findIdx? p = none) (hx : p x = true) : (l ++ [x]).findIdx? p = some l.length := by
  rw [List.findIdx?_append, h]
  simp [hx]

/-- The item a call returns represents the geometry (up to the hash). -/
theorem C49_returned (hash : G → H) (s t : St G) (k : Kind) (g : G) (c : Bool) (i : Nat)
    (h : exec hash s (.geom k g c) = (some i, t)) :
    ∃ r, (t.cont k)[i]? = some r ∧ hash r.value = hash g := by
  rw [exec] at h
  rcases addGeom_cases hash s k g c with ⟨j, -, hf, e⟩ | ⟨-, e⟩
  · (try dsimp only at h); rw [e] at h; cases h
    rw [List.findIdx?_eq_some_iff_getElem] at hf
    obtain ⟨hl, hp, -⟩ := hf
    exact ⟨_, List.getElem?_eq_getElem hl, by simpa using hp⟩
  · (try dsimp only at h); rw [e] at h; cases h
    refine ⟨⟨(s.cont k).length, g⟩, ?_, rfl⟩
    rw [cont_setCont, if_pos rfl]
    simp

/-- The loop a call returns has the given edges in the given order, and keeps them whatever calls follow. -/
theorem C49_loop (hash : G → H) (s : St G) (es : List Nat) (cs : List (Call G)) :
    ∃ i t, exec hash s (.loop es) = (some i, t) ∧ (run hash t cs).loops[i]? = some es :=
  ⟨_, _, rfl, prefix_get (run_ext hash cs _).loops (by simp [addLoop])⟩

/-- Geometry with the same hash gets one index: whatever calls are in between, adding it again
returns the same item and changes nothing. -/
theorem C49_dedup (hash : G → H) (s t : St G) (k : Kind) (g g' : G) (i : Nat) (cs : List (Call G))
    (h : exec hash s (.geom k g true) = (some i, t)) (hg : hash g' = hash g) :
    exec hash (run hash t cs) (.geom k g' true) = (some i, run hash t cs) := by
  have hf : (t.cont k).findIdx? (fun x => decide (hash x.value = hash g)) = some i := by
    rw [exec] at h
    rcases addGeom_cases hash s k g true with ⟨j, -, hf, e⟩ | ⟨hn, e⟩
    · (try dsimp only at h); rw [e] at h; cases h; exact hf
    · (try dsimp only at h); rw [e] at h; cases h
      rw [cont_setCont, if_pos rfl]
      exact findIdx?_append_new (hn rfl) (by simp)
  have := findIdx?_prefix ((run_ext hash cs t).cont k) hf
  rw [exec]
  rcases addGeom_cases hash (run hash t cs) k g' true with ⟨j, -, hj, e⟩ | ⟨hn, e⟩
  · try dsimp only
    rw [e]
    rw [hg] at hj
    rw [this] at hj
    cases hj
    rfl
  · rw [hg] at hn
    rw [this] at hn
    cases hn rfl

/-- The same for vertices. -/
theorem C49_vertex_dedup (hash : G → H) (s t : St G) (p q i : Nat) (r r' : Rep G)
    (cs : List (Call G)) (hp : s.points[p]? = some r) (h : exec hash s (.vertex p true) = (some i, t))
    (hq : (run hash t cs).points[q]? = some r') (hr : hash r'.value = hash r.value) :
    exec hash (run hash t cs) (.vertex q true) = (some i, run hash t cs) := by
  have hf : t.vertices.findIdx? (fun v => decide (hash v.rep.value = hash r.value)) = some i := by
    rw [exec, hp] at h
    rcases addVertex_cases hash s r true with ⟨j, -, hf, e⟩ | ⟨hn, e⟩
    · (try dsimp only at h); rw [e] at h; cases h; exact hf
    · (try dsimp only at h); rw [e] at h; cases h
      exact findIdx?_append_new (hn rfl) (by simp)
  have := findIdx?_prefix (run_ext hash cs t).vertices hf
  rw [exec, hq]
  rcases addVertex_cases hash (run hash t cs) r' true with ⟨j, -, hj, e⟩ | ⟨hn, e⟩
  · try dsimp only
    rw [e]
    rw [hr, this] at hj
    cases hj
    rfl
  · rw [hr, this] at hn
    cases hn rfl

/-- All calls that add geometry or vertices are checked. -/
def Checked : Call G → Prop
  | .geom _ _ c => c = true
  | .vertex _ c => c = true
  | _ => True

/-- Different items have different hashes, and so have different vertices. -/
structure Uniq (hash : G → H) (s : St G) : Prop where
  cont : ∀ k, (s.cont k).Pairwise (fun a b => hash a.value ≠ hash b.value)
  vertices : s.vertices.Pairwise (fun a b => hash a.rep.value ≠ hash b.rep.value)

theorem pairwise_snoc {α : Type} {R : α → α → Prop} {l : List α} {x : α} (h : l.Pairwise R)
    (hx : ∀ a ∈ l, R a x) : (l ++ [x]).Pairwise R := by
  rw [List.pairwise_append]
  refine ⟨h, List.pairwise_singleton _ _, ?_⟩
  intro a ha b hb
  rw [List.mem_singleton] at hb
  subst hb
  exact hx a ha

theorem exec_uniq (hash : G → H) {s : St G} (u : Uniq hash s) (c : Call G) (hc : Checked c) :
    Uniq hash (exec hash s c).2 := by
  cases c with
  | geom k g c =>
    rw [exec]
    rcases addGeom_cases hash s k g c with ⟨i, -, -, h⟩ | ⟨hn, h⟩
    · dsimp only; rw [h]; exact u
    · dsimp only; rw [h]
      refine ⟨?_, by rw [setCont_vertices]; exact u.vertices⟩
      intro k'
      rw [cont_setCont]
      split_ifs with hk
      · refine pairwise_snoc (u.cont k) ?_
        intro a ha e
        have := List.findIdx?_eq_none_iff.1 (hn hc) a ha
        simp [e] at this
      · exact u.cont k'
  | vertex p c =>
    rw [exec]
    cases hp : s.points[p]? with
    | none => exact u
    | some r =>
      rcases addVertex_cases hash s r c with ⟨i, -, -, h⟩ | ⟨hn, h⟩
      · dsimp only; rw [h]; exact u
      · dsimp only; rw [h]
        refine ⟨fun k => by cases k; exacts [u.cont .point, u.cont .curve, u.cont .surface], ?_⟩
        refine pairwise_snoc u.vertices ?_
        intro a ha e
        have := List.findIdx?_eq_none_iff.1 (hn hc) a ha
        simp [e] at this
  | edge c a b ch =>
    rw [exec]
    cases s.curves[c]? with
    | none => exact u
    | some r =>
      cases s.vertices[a]? with
      | none => exact u
      | some x =>
        cases s.vertices[b]? with
        | none => exact u
        | some y =>
          rcases addEdge_cases hash s r x y ch with ⟨i, -, -, h⟩ | ⟨-, h⟩
          · dsimp only; rw [h]; exact u
          · dsimp only; rw [h]
            exact ⟨fun k => by cases k; exacts [u.cont .point, u.cont .curve, u.cont .surface],
              u.vertices⟩
  | loop es =>
    exact ⟨fun k => by cases k; exacts [u.cont .point, u.cont .curve, u.cont .surface], u.vertices⟩
  | face f ls c =>
    rw [exec]
    cases s.surfaces[f]? with
    | none => exact u
    | some r =>
      rcases addFace_cases hash s r ls c with ⟨i, -, -, h⟩ | ⟨-, -, h⟩ | ⟨-, h⟩
      · dsimp only; rw [h]; exact u
      · dsimp only; rw [h]; exact u
      · dsimp only; rw [h]
        exact ⟨fun k => by cases k; exacts [u.cont .point, u.cont .curve, u.cont .surface],
          u.vertices⟩

/-- With checking on, no two items and no two vertices have the same hash. -/
theorem C49_unique (hash : G → H) (cs : List (Call G)) (hc : ∀ c ∈ cs, Checked c) :
    Uniq hash (run hash {} cs) := by
  suffices ∀ s : St G, Uniq hash s → Uniq hash (run hash s cs) by
    refine this _ ⟨fun k => ?_, List.Pairwise.nil⟩
    cases k <;> exact List.Pairwise.nil
  induction cs with
  | nil => intro s u; exact u
  | cons c cs ih =>
    intro s u
    exact ih (fun x hx => hc x (by simp [hx])) _ (exec_uniq hash u c (hc c (by simp)))

/-- Equal geometry gets one index, different geometry different ones, if the hash tells exactly the
different ones apart.

`_partial`: the hash of the code does neither: `C49_zero_refuted`, `C49_collision_refuted`. -/
theorem C49_same_partial (hash : G → H) (same : G → G → Prop)
    (hs : ∀ a b, hash a = hash b ↔ same a b) (cs : List (Call G)) (hc : ∀ c ∈ cs, Checked c)
    (k : Kind) (i j : Nat) (a b : Rep G) (ha : ((run hash {} cs).cont k)[i]? = some a)
    (hb : ((run hash {} cs).cont k)[j]? = some b) : same a.value b.value ↔ i = j := by
  have u := (C49_unique hash cs hc).cont k
  rw [← hs]
  constructor
  · intro e
    obtain ⟨hi, rfl⟩ := List.getElem?_eq_some_iff.1 ha
    obtain ⟨hj, rfl⟩ := List.getElem?_eq_some_iff.1 hb
    rw [List.pairwise_iff_getElem] at u
    rcases Nat.lt_trichotomy i j with c | c | c
    · exact absurd e (u i j hi hj c)
    · exact c
    · exact absurd e.symm (u j i hj hi c)
  · rintro rfl
    rw [ha] at hb
    cases hb
    rfl

/-- A coordinate rounded to eight places: sign bit and number of units. -/
structure Dec where
  neg : Bool
  mag : Nat
deriving DecidableEq

/-- Its value. -/
def Dec.val (d : Dec) : Int := if d.neg then -(d.mag : Int) else d.mag

/-- Points with the same coordinates but other bytes (the sign of a zero) get two indices, unless
their hashes collide. -/
theorem C49_zero_refuted (hash : List Dec → H) (p q : List Dec) (_hv : p.map Dec.val = q.map Dec.val)
    (hh : hash p ≠ hash q) :
    (run hash {} [.geom .point p true, .geom .point q true]).points = [⟨0, p⟩, ⟨1, q⟩] := by
  simp [run, exec, addGeom, St.cont, St.setCont, Rep.eqv, hh]

/-- Whatever the hash: if it has finitely many values, there is different geometry that gets the index
of other geometry. -/
theorem C49_collision_refuted [Infinite G] [Finite H] (hash : G → H) :
    ∃ a b : G, a ≠ b ∧ (exec hash (run hash {} [.geom .point a true]) (.geom .point b true)).1 = some 0 ∧
      (run hash {} [.geom .point a true, .geom .point b true]).points = [⟨0, a⟩] := by
  obtain ⟨a, b, hne, he⟩ := Finite.exists_ne_map_eq_of_infinite hash
  refine ⟨a, b, hne, ?_, ?_⟩ <;> simp [run, exec, addGeom, St.cont, St.setCont, Rep.eqv, he]

/-- `[0.0, 1.0]` and `[-0.0, 1.0]`. -/
example : ([⟨false, 0⟩, ⟨false, 100000000⟩] : List Dec).map Dec.val =
    ([⟨true, 0⟩, ⟨false, 100000000⟩] : List Dec).map Dec.val ∧
    (fun x : List Dec => x) [⟨false, 0⟩, ⟨false, 100000000⟩] ≠ [⟨true, 0⟩, ⟨false, 100000000⟩] := by
  decide

/-! ## C110 -/

/-- The hash of the point of a vertex. -/
def Vtx.key (hash : G → H) (v : Vtx G) : H := hash v.rep.value

theorem sameEdge_iff (hash : G → H) (r : Rep G) (a b : Vtx G) (e : Edge G) :
    sameEdge hash r a b e = true ↔ hash e.curve.value = hash r.value ∧
      (a.key hash = e.start.key hash ∨ a.key hash = e.stop.key hash) ∧
      (b.key hash = e.start.key hash ∨ b.key hash = e.stop.key hash) := by
  simp [sameEdge, Rep.eqv, Vtx.key, and_assoc]

/-- The edge that `add_edge` returns has the curve, and between different points the two ends asked
for (in one or the other order).

`_partial`: not for a closed edge (`C110_edge_refuted`). -/
theorem C110_edge_partial (hash : G → H) (s t : St G) (c a b i : Nat) (ch : Bool) (r : Rep G)
    (x y : Vtx G) (hc : s.curves[c]? = some r) (ha : s.vertices[a]? = some x)
    (hb : s.vertices[b]? = some y) (h : exec hash s (.edge c a b ch) = (some i, t))
    (hne : x.key hash ≠ y.key hash) :
    ∃ e, t.edges[i]? = some e ∧ hash e.curve.value = hash r.value ∧
      (e.start.key hash = x.key hash ∧ e.stop.key hash = y.key hash ∨
       e.start.key hash = y.key hash ∧ e.stop.key hash = x.key hash) := by
  rw [exec, hc, ha, hb] at h
  rcases addEdge_cases hash s r x y ch with ⟨j, -, hf, e⟩ | ⟨-, e⟩
  · (try dsimp only at h); rw [e] at h; cases h
    rw [List.findIdx?_eq_some_iff_getElem] at hf
    obtain ⟨hl, hp, -⟩ := hf
    rw [sameEdge_iff] at hp
    refine ⟨_, List.getElem?_eq_getElem hl, hp.1, ?_⟩
    rcases hp.2 with ⟨h1 | h1, h2 | h2⟩
    · exact absurd (h1.trans h2.symm) hne
    · exact Or.inl ⟨h1.symm, h2.symm⟩
    · exact Or.inr ⟨h2.symm, h1.symm⟩
    · exact absurd (h1.trans h2.symm) hne
  · (try dsimp only at h); rw [e] at h; cases h
    exact ⟨⟨r, x, y⟩, by simp, rfl, Or.inl ⟨rfl, rfl⟩⟩

/-- Adding the same edge again, in whichever direction and after whatever calls, returns the same. -/
theorem C110_edge_dedup (hash : G → H) (s t : St G) (c a b c' a' b' i : Nat) (r r' : Rep G)
    (x y x' y' : Vtx G) (cs : List (Call G)) (hc : s.curves[c]? = some r)
    (ha : s.vertices[a]? = some x) (hb : s.vertices[b]? = some y)
    (h : exec hash s (.edge c a b true) = (some i, t))
    (hc' : (run hash t cs).curves[c']? = some r') (ha' : (run hash t cs).vertices[a']? = some x')
    (hb' : (run hash t cs).vertices[b']? = some y') (hr : hash r'.value = hash r.value)
    (hxy : x'.key hash = x.key hash ∧ y'.key hash = y.key hash ∨
      x'.key hash = y.key hash ∧ y'.key hash = x.key hash) :
    exec hash (run hash t cs) (.edge c' a' b' true) = (some i, run hash t cs) := by
  have hsame : sameEdge hash r' x' y' = sameEdge hash r x y := by
    funext e
    rw [Bool.eq_iff_iff, sameEdge_iff, sameEdge_iff, hr]
    rcases hxy with ⟨h1, h2⟩ | ⟨h1, h2⟩
    · rw [h1, h2]
    · rw [h1, h2]; tauto
  have hf : t.edges.findIdx? (sameEdge hash r x y) = some i := by
    rw [exec, hc, ha, hb] at h
    rcases addEdge_cases hash s r x y true with ⟨j, -, hf, e⟩ | ⟨hn, e⟩
    · (try dsimp only at h); rw [e] at h; cases h; exact hf
    · (try dsimp only at h); rw [e] at h; cases h
      refine findIdx?_append_new (hn rfl) ?_
      rw [sameEdge_iff]
      exact ⟨rfl, Or.inl rfl, Or.inr rfl⟩
  have := findIdx?_prefix (run_ext hash cs t).edges hf
  rw [exec, hc', ha', hb']
  rcases addEdge_cases hash (run hash t cs) r' x' y' true with ⟨j, -, hj, e⟩ | ⟨hn, e⟩
  · try dsimp only
    rw [e]
    rw [hsame, this] at hj
    cases hj
    rfl
  · rw [hsame, this] at hn
    cases hn rfl

/-- If there is an edge on the curve that has the vertex at one end (and no closed edges), then a closed
edge at that vertex is not made: an edge with different ends is returned. -/
theorem C110_edge_refuted (hash : G → H) (s : St G) (c a : Nat) (r : Rep G) (x : Vtx G)
    (hc : s.curves[c]? = some r) (ha : s.vertices[a]? = some x)
    (hopen : ∀ e ∈ s.edges, e.start.key hash ≠ e.stop.key hash)
    (hex : ∃ e ∈ s.edges, hash e.curve.value = hash r.value ∧
      (e.start.key hash = x.key hash ∨ e.stop.key hash = x.key hash)) :
    ∃ i e, exec hash s (.edge c a a true) = (some i, s) ∧ s.edges[i]? = some e ∧
      e.start.key hash ≠ e.stop.key hash := by
  rw [exec, hc, ha]
  rcases addEdge_cases hash s r x x true with ⟨j, -, hf, e⟩ | ⟨hn, -⟩
  · rw [List.findIdx?_eq_some_iff_getElem] at hf
    obtain ⟨hl, -, -⟩ := hf
    exact ⟨j, s.edges[j], by dsimp only; rw [e], List.getElem?_eq_getElem hl,
      hopen _ (List.getElem_mem hl)⟩
  · exfalso
    obtain ⟨e, he, h1, h2⟩ := hex
    have := List.findIdx?_eq_none_iff.1 (hn rfl) e he
    have ht : sameEdge hash r x x e = true := by
      rw [sameEdge_iff]
      rcases h2 with h2 | h2
      · exact ⟨h1, Or.inl h2.symm, Or.inl h2.symm⟩
      · exact ⟨h1, Or.inr h2.symm, Or.inr h2.symm⟩
    rw [ht] at this
    cases this

theorem scan_found (hash : G → H) (r : Rep G) (ls : List Nat) : ∀ (fs : List (Face G)) (k i : Nat),
    scanFaces hash r ls k fs = .found i →
    ∃ j f, i = k + j ∧ fs[j]? = some f ∧ hash f.surf.value = hash r.value ∧
      f.bounds.head? = ls.head? ∧ ls.length = 1
  | [], k, i, h => by simp [scanFaces] at h
  | f :: fs, k, i, h => by
    have next : scanFaces hash r ls (k + 1) fs = .found i → _ := scan_found hash r ls fs (k + 1) i
    have up : scanFaces hash r ls (k + 1) fs = .found i → ∃ j g, i = k + j ∧ (f :: fs)[j]? = some g ∧
        hash g.surf.value = hash r.value ∧ g.bounds.head? = ls.head? ∧ ls.length = 1 := by
      intro h
      obtain ⟨j, g, h1, h2, h3, h4, h5⟩ := next h
      exact ⟨j + 1, g, by omega, by simpa using h2, h3, h4, h5⟩
    rw [scanFaces.eq_def] at h
    dsimp only at h
    by_cases he : f.surf.eqv hash r = true
    · rw [if_pos he] at h
      cases ls with
      | nil => simp at h
      | cons a rest =>
        cases hb : f.bounds with
        | nil => rw [hb] at h; simp at h
        | cons b bs =>
          rw [hb] at h
          dsimp only at h
          split_ifs at h with h1 h2
          · cases h
            refine ⟨0, f, rfl, rfl, by simpa [Rep.eqv] using he, ?_, by simp [h2]⟩
            rw [hb, h1]; rfl
          · exact up h
    · rw [if_neg he] at h
      exact up h

/-- The face that `add_face` returns has the surface and the outer loop asked for.

`_partial`: the inner loops are not those asked for: `C110_face_refuted`, `C110_face_raises`. -/
theorem C110_face_partial (hash : G → H) (s t : St G) (f i : Nat) (ls : List Nat) (ch : Bool)
    (r : Rep G) (hf : s.surfaces[f]? = some r) (h : exec hash s (.face f ls ch) = (some i, t)) :
    ∃ x, t.faces[i]? = some x ∧ hash x.surf.value = hash r.value ∧ x.bounds.head? = ls.head? := by
  rw [exec, hf] at h
  rcases addFace_cases hash s r ls ch with ⟨j, -, hs, e⟩ | ⟨-, -, e⟩ | ⟨-, e⟩
  · (try dsimp only at h); rw [e] at h; cases h
    obtain ⟨j, x, h1, h2, h3, h4, -⟩ := scan_found hash r ls _ _ _ hs
    exact ⟨x, by rw [h1, Nat.zero_add]; exact h2, h3, h4⟩
  · (try dsimp only at h); rw [e] at h; cases h
  · (try dsimp only at h); rw [e] at h; cases h
    exact ⟨⟨r, ls⟩, by simp, rfl, rfl⟩

/-- A face without holes is not made if there is one with the same outer loop: the one with holes is
returned. -/
theorem C110_face_refuted (hash : G → H) (s : St G) (f l a : Nat) (hs : List Nat) (r : Rep G)
    (hf : s.surfaces[f]? = some r) (h0 : s.faces = []) :
    ∃ t, exec hash s (.face f (l :: a :: hs) true) = (some 0, t) ∧
      exec hash t (.face f [l] true) = (some 0, t) ∧ t.faces = [⟨r, l :: a :: hs⟩] := by
  refine ⟨{ s with faces := [⟨r, l :: a :: hs⟩] }, ?_, ?_, rfl⟩
  · rw [exec, hf]; simp [addFace, h0, scanFaces]
  · simp [exec, hf, addFace, scanFaces, Rep.eqv]

/-- A face with holes cannot be asked for twice: the second time raises. -/
theorem C110_face_raises (hash : G → H) (s : St G) (f l a : Nat) (hs : List Nat) (r : Rep G)
    (hf : s.surfaces[f]? = some r) (h0 : s.faces = []) :
    ∃ t, exec hash s (.face f (l :: a :: hs) true) = (some 0, t) ∧
      exec hash t (.face f (l :: a :: hs) true) = (none, t) := by
  refine ⟨{ s with faces := [⟨r, l :: a :: hs⟩] }, ?_, ?_⟩
  · rw [exec, hf]; simp [addFace, h0, scanFaces]
  · simp [exec, hf, addFace, scanFaces, Rep.eqv]

/-- Two points, a third that equals the first, a curve, an edge, its reverse, a closed edge: one edge. -/
example : let s := run (fun n : Nat => n % 10) {} [.geom .point 1 true, .geom .point 2 true,
      .geom .point 11 true, .geom .curve 5 true, .geom .surface 7 true, .vertex 0 true,
      .vertex 1 true, .vertex 0 true, .edge 0 0 1 true, .edge 0 1 0 true, .edge 0 0 0 true]
    s.points = [⟨0, 1⟩, ⟨1, 2⟩] ∧ s.vertices.length = 2 ∧ s.edges.length = 1 ∧
    s.surfaces[0]? = some ⟨0, 7⟩ ∧ s.faces = [] := by decide

end Verif.Brep
