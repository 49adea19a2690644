import Verif.Proofs.IndepGraph
/-
C22-C24: union-find and independence graphs.
-/
namespace Gospn
open Spec

/-- After any sequence of calls, `Find` gives two nodes the same representative exactly if the unions performed connect them, the representative is itself
connected to the node, and the membership of no node changes. -/
theorem C22_find (ops : List UFOp) (hv : ValidOps 0 ops) :
    ∃ u, UF.empty.run ops = some u ∧ u.size = (madeIds ops).length ∧
      ∀ x < u.size, ∀ y < u.size, ∃ u1 u2 r s, u.find x = some (u1, r) ∧ u1.find y = some (u2, s) ∧
        r < u.size ∧ Connected (unions ops) x r ∧ (r = s ↔ Connected (unions ops) x y) ∧
        ∀ z < u.size, (u1.find z).map (·.2) = (u.find z).map (·.2) := by
  obtain ⟨u, root, e1, e2, e3⟩ := UFOk.empty.run ops hv
  have hsz : u.size = (madeIds ops).length := by rw [← UF.size_ids, e3]; simp [UF.ids, UF.empty]
  refine ⟨u, e1, hsz, fun x hx y hy => ?_⟩
  obtain ⟨p1, f1, o1⟩ := e2.find hx
  obtain ⟨p2, f2, o2⟩ := o1.find (x := y) hy
  simp only [List.nil_append] at e2
  refine ⟨_, _, _, _, f1, f2, e2.forest.root_lt x hx, ?_, e2.conn x hx y hy, ?_⟩
  · exact (e2.conn x hx _ (e2.forest.root_lt x hx)).1 (e2.forest.root_root hx).symm
  · intro z hz
    obtain ⟨p3, f3, -⟩ := o1.find (x := z) hz
    obtain ⟨p4, f4, -⟩ := e2.find hz
    rw [f3, f4]; rfl

/-- `Union` returns nil exactly if its arguments were already connected; otherwise it returns the representative of the united set, and 1 or 2 for the
argument it was the representative of. -/
theorem C22_union (ops : List UFOp) (hv : ValidOps 0 ops) :
    ∃ u, UF.empty.run ops = some u ∧
      ∀ x < u.size, ∀ y < u.size, ∃ u' res, u.union x y = some (u', res) ∧ (res = none ↔ Connected (unions ops) x y) ∧
        ∀ r k, res = some (r, k) → (u'.find x).map (·.2) = some r ∧ (u'.find y).map (·.2) = some r ∧
          ((k = 1 ∧ Connected (unions ops) x r) ∨ (k = 2 ∧ Connected (unions ops) y r)) := by
  obtain ⟨u, root, e1, e2, e3⟩ := UFOk.empty.run ops hv
  simp only [List.nil_append] at e2
  refine ⟨u, e1, fun x hx y hy => ?_⟩
  obtain ⟨u', res, root', f1, f2, f3, -, f4, f5⟩ := e2.union hx hy
  refine ⟨u', res, f1, f4.trans (e2.conn x hx y hy), fun r k hr => ?_⟩
  obtain ⟨g1, g2⟩ := f5 r k hr
  have hxy : root' x = root' y := (f2.conn x (by rw [f3]; exact hx) y (by rw [f3]; exact hy)).2 (Relation.EqvGen.rel _ _ (by simp))
  obtain ⟨p1, h1, -⟩ := f2.find (x := x) (by rw [f3]; exact hx)
  obtain ⟨p2, h2, -⟩ := f2.find (x := y) (by rw [f3]; exact hy)
  have hc : ∀ z < u.size, Connected (unions ops) z (root z) := fun z hz => (e2.conn z hz _ (e2.forest.root_lt z hz)).1 (e2.forest.root_root hz).symm
  refine ⟨by rw [h1, ← g1]; rfl, by rw [h2, ← g1, hxy]; rfl, ?_⟩
  rcases g2 with ⟨g2, rfl⟩ | ⟨g2, rfl⟩
  · exact Or.inl ⟨g2, hc x hx⟩
  · exact Or.inr ⟨g2, hc y hy⟩

/-- After any sequence of calls, `UFVarids` on the representative of a node lists the ids of exactly the nodes connected to it, each once. -/
theorem C23_varids (ops : List UFOp) (hv : ValidOps 0 ops) :
    ∃ u, UF.empty.run ops = some u ∧
      ∀ x < u.size, ∃ u1 r, u.find x = some (u1, r) ∧ ∃ members : List Nat, members.Nodup ∧
        (∀ z, z ∈ members ↔ z < u.size ∧ Connected (unions ops) x z) ∧
        u.varids r = some (members.map (fun z => (madeIds ops).getD z 0)) ∧ u1.varids r = some (members.map (fun z => (madeIds ops).getD z 0)) := by
  obtain ⟨u, root, e1, e2, e3⟩ := UFOk.empty.run ops hv
  simp only [List.nil_append] at e2
  have hid : ∀ z < u.size, u.varid z = (madeIds ops).getD z 0 := by
    intro z hz
    have e3 : u.ids = madeIds ops := by rw [e3]; simp [UF.ids, UF.empty]
    rw [← e3]; simp [UF.ids, List.getD_eq_getElem?_getD, hz]
  refine ⟨u, e1, fun x hx => ?_⟩
  obtain ⟨p1, f1, o1⟩ := e2.find hx
  obtain ⟨l, h1, h2, h3⟩ := e2.varids (e2.forest.root_lt x hx) (e2.forest.pa_root x hx)
  obtain ⟨l', h1', h2', h3'⟩ := o1.varids (e2.forest.root_lt x hx) (o1.forest.pa_root x hx)
  have hm : ∀ z, z ∈ l ↔ z < u.size ∧ Connected (unions ops) x z := by
    intro z
    rw [h3]
    constructor
    · rintro ⟨a, b⟩; exact ⟨a, (e2.conn x hx z a).1 b.symm⟩
    · rintro ⟨a, b⟩; exact ⟨a, ((e2.conn x hx z a).2 b).symm⟩
  have hmap : l.map u.varid = l.map (fun z => (madeIds ops).getD z 0) := List.map_congr_left (fun z hz => hid z ((h3 z).1 hz).1)
  have hsame : UF.varids { u with pa := p1 } (root x) = u.varids (root x) := by
    have : ∀ f z, UF.varidsLoop { u with pa := p1 } f z = u.varidsLoop f z := by
      intro f
      induction f with
      | zero => intro z; rfl
      | succ f ih => intro z; simp only [UF.varidsLoop]; rw [funext ih]
    exact this _ _
  exact ⟨_, _, f1, l, h2, hm, by rw [h1, hmap], by rw [hsame, h1, hmap]⟩

/-- A program with three sets united in a chain. -/
example : ValidOps 0 [.make 7, .make 8, .make 9, .make 4, .union 0 1, .find 0, .union 1 2] := by simp [ValidOps]

/-- The pairs of positions that the test declares dependent. -/
def Spec.dependentPairs (n : Nat) (indep : Nat → Nat → Bool) (i j : Nat) : Prop := i < j ∧ j < n ∧ indep i j = false

/-- Both constructors return the connected components of the dependence graph, for any outcome of the tests. -/
theorem C24_components (ids : List Int) (hnd : ids.Nodup) (indep : Nat → Nat → Bool) :
    ∃ K K', newUFIndepGraph ids indep = some K ∧ newIndepGraph ids indep = some K' ∧
      IsPartitionInto ids (Relation.EqvGen (dependentPairs ids.length indep)) K ∧
      IsPartitionInto ids (Relation.EqvGen (dependentPairs ids.length indep)) K' ∧
      ∀ v ∈ ids, ∀ w ∈ ids, ((∃ s ∈ K, v ∈ s ∧ w ∈ s) ↔ ∃ s ∈ K', v ∈ s ∧ w ∈ s) := by
  have hR : (fun i j => Connected ((pairsBelow ids.length).filter (fun p => !indep p.1 p.2)) i j) = Relation.EqvGen (dependentPairs ids.length indep) := by
    have : (fun a b => (a, b) ∈ (pairsBelow ids.length).filter (fun p => !indep p.1 p.2)) = dependentPairs ids.length indep := by
      funext a b
      simp only [List.mem_filter, mem_pairsBelow, dependentPairs, Bool.not_eq_true', and_assoc]
    show (fun i j => Relation.EqvGen _ i j) = _
    rw [this]
  obtain ⟨K, h1, h2⟩ := newUFIndepGraph_spec ids indep hnd
  obtain ⟨K', h1', h2'⟩ := newIndepGraph_spec ids indep hnd
  rw [hR] at h2 h2'
  refine ⟨K, K', h1, h1', h2, h2', fun v hv w hw => ?_⟩
  obtain ⟨i, hi⟩ := List.getElem?_of_mem hv
  obtain ⟨j, hj⟩ := List.getElem?_of_mem hw
  rw [h2.2.2 i j v w hi hj, h2'.2.2 i j v w hi hj]

example : ([3, 5, 8, 1] : List Int).Nodup := by decide

/-- Three variables, of which the first and the last are dependent. -/
example : newUFIndepGraph [3, 5, 8] (fun i j => !(i == 0 && j == 2)) = some [[5], [8, 3]] := by decide

end Gospn
