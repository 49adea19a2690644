import Verif.Proofs.Draw
/-
`DrawGraphTools` draws what `DrawGraph` draws, except that the leaves of a variable are one vertex.
-/
set_option linter.unusedSectionVars false
set_option linter.unusedSimpArgs false

namespace Gospn
open Spec
variable {ι F : Type}

/-- The name is not one of a leaf. -/
def DName.inner (v : DName) : Prop := ∀ k, v ≠ .var k

/-- The states of the two functions at the same point: `ρ` takes a vertex of the first to the one of the second that it is merged into. -/
structure MergeSim (ρ : DName → DName) (a b : DrawSt F) : Prop where
  nsums : b.nsums = a.nsums
  nprods : b.nprods = a.nprods
  fix : ∀ v, v.inner → ρ v = v
  edges : edges b.out = (edges a.out).map fun e => (ρ e.1, ρ e.2.1, e.2.2)
  verts : ∀ v l, (v, l) ∈ vertices b.out ↔ ∃ u, (u, l) ∈ vertices a.out ∧ ρ u = v
  distinct : (dnames b.out).Nodup
  vmap : ∀ x n, b.vmap x = some n ↔ ∃ u, (u, .var x) ∈ vertices a.out ∧ ρ u = n
  usedb : ∀ v ∈ dnames b.out, b.used v
  useda : ∀ v ∈ dnames a.out, a.used v
  ends : ∀ e ∈ Spec.edges a.out, a.used e.1 ∧ a.used e.2.1
  leaves : ∀ u l, (u, l) ∈ vertices a.out → ((∃ x, l = .var x) ↔ ¬ u.inner)

theorem MergeSim.start : MergeSim id (DrawSt.init (F := F)) .init where
  nsums := rfl
  nprods := rfl
  fix := fun _ _ => rfl
  edges := rfl
  verts := by simp [DrawSt.init, vertices]
  distinct := by simp [DrawSt.init, vertices, dnames]
  vmap := by simp [DrawSt.init, vertices]
  usedb := by simp [DrawSt.init, vertices, dnames]
  useda := by simp [DrawSt.init, vertices, dnames]
  ends := by simp [DrawSt.init, Spec.edges]
  leaves := by simp [DrawSt.init, vertices]

theorem mem_dnames {d : List (DStmt F)} {v : DName} {l : DLabel} (h : (v, l) ∈ vertices d) : v ∈ dnames d := List.mem_map.2 ⟨(v, l), h, rfl⟩

theorem MergeSim.edge {ρ : DName → DName} {a b : DrawSt F} (h : MergeSim ρ a b) {u v : DName} (hu : a.used u) (hv : a.used v) (w : Option F) :
    MergeSim ρ { a with out := a.out ++ [.edge u v w] } { b with out := b.out ++ [.edge (ρ u) (ρ v) w] } := by
  have h1 : ∀ (d : List (DStmt F)) x y, vertices (d ++ [.edge x y w]) = vertices d := by simp [vertices_append, vertices]
  have h2 : ∀ (d : List (DStmt F)) x y, dnames (d ++ [.edge x y w]) = dnames d := by simp [dnames, h1]
  refine { nsums := h.nsums, nprods := h.nprods, fix := h.fix, edges := ?_, verts := ?_, distinct := ?_, vmap := ?_, usedb := ?_, useda := ?_, ends := ?_, leaves := ?_ }
  · simp [edges_append, Spec.edges, h.edges]
  · simpa only [h1] using h.verts
  · simpa only [h2] using h.distinct
  · simpa only [h1] using h.vmap
  · intro x hx
    rw [h2] at hx
    have := h.usedb x hx
    cases x <;> exact this
  · intro x hx
    rw [h2] at hx
    have := h.useda x hx
    cases x <;> exact this
  · intro e he
    simp only [edges_append, Spec.edges, List.mem_append, List.mem_singleton] at he
    rcases he with he | rfl
    · obtain ⟨g1, g2⟩ := h.ends e he
      refine ⟨?_, ?_⟩
      · cases hx : e.1 <;> rw [hx] at g1 <;> exact g1
      · cases hx : e.2.1 <;> rw [hx] at g2 <;> exact g2
    · refine ⟨?_, ?_⟩
      · cases u <;> exact hu
      · cases v <;> exact hv
  · simpa only [h1] using h.leaves

theorem used_newLeaf {a : DrawSt F} {x : Int} {v : DName} (h : a.used v) : (a.newLeaf x).2.used v := by
  cases v with
  | var k => exact Nat.lt_succ_of_lt h
  | _ => exact h

theorem MergeSim.leaf {ρ : DName → DName} {a b : DrawSt F} (h : MergeSim ρ a b) (x : Int) :
    MergeSim (Function.update ρ (.var a.nvars) (b.mergedLeaf x).1) (a.newLeaf x).2 (b.mergedLeaf x).2 := by
  have hfresh : ∀ v, a.used v → v ≠ .var a.nvars := by
    rintro v hv rfl
    exact Nat.lt_irrefl _ hv
  have hold : ∀ v n, a.used v → Function.update ρ (.var a.nvars) n v = ρ v := fun v n hv => Function.update_of_ne (hfresh v hv) _ _
  have hav : vertices (a.newLeaf x).2.out = vertices a.out ++ [(.var a.nvars, .var x)] := by simp [DrawSt.newLeaf, vertices_append, vertices]
  have hae : Spec.edges (a.newLeaf x).2.out = Spec.edges a.out := by simp [DrawSt.newLeaf, edges_append, Spec.edges]
  have hmapE : ∀ n, ((Spec.edges a.out).map fun e => (Function.update ρ (.var a.nvars) n e.1, Function.update ρ (.var a.nvars) n e.2.1, e.2.2)) =
      (Spec.edges a.out).map fun e => (ρ e.1, ρ e.2.1, e.2.2) := by
    intro n
    refine List.map_congr_left fun e he => ?_
    rw [hold _ _ (h.ends e he).1, hold _ _ (h.ends e he).2]
  have hex : ∀ n v l, (∃ u, (u, l) ∈ vertices (a.newLeaf x).2.out ∧ Function.update ρ (.var a.nvars) n u = v) ↔
      (∃ u, (u, l) ∈ vertices a.out ∧ ρ u = v) ∨ (l = .var x ∧ n = v) := by
    intro n v l
    rw [hav]
    constructor
    · rintro ⟨u, hu, e⟩
      rw [List.mem_append, List.mem_singleton, Prod.mk.injEq] at hu
      rcases hu with hu | ⟨rfl, rfl⟩
      · rw [hold _ _ (h.useda _ (mem_dnames hu))] at e
        exact Or.inl ⟨u, hu, e⟩
      · rw [Function.update_self] at e
        exact Or.inr ⟨rfl, e⟩
    · rintro (⟨u, hu, e⟩ | ⟨rfl, rfl⟩)
      · exact ⟨u, List.mem_append_left _ hu, by rw [hold _ _ (h.useda _ (mem_dnames hu))]; exact e⟩
      · exact ⟨.var a.nvars, by simp, Function.update_self ..⟩
  have huseda : ∀ v ∈ dnames (a.newLeaf x).2.out, (a.newLeaf x).2.used v := by
    intro v hv
    rw [dnames, hav, List.map_append, List.mem_append] at hv
    rcases hv with hv | hv
    · exact used_newLeaf (h.useda v hv)
    · simp only [List.map_cons, List.map_nil, List.mem_singleton] at hv
      rw [hv]
      exact Nat.lt_succ_self _
  have hends : ∀ e ∈ Spec.edges (a.newLeaf x).2.out, (a.newLeaf x).2.used e.1 ∧ (a.newLeaf x).2.used e.2.1 := by
    intro e he
    rw [hae] at he
    exact ⟨used_newLeaf (h.ends e he).1, used_newLeaf (h.ends e he).2⟩
  have hleaves : ∀ u l, (u, l) ∈ vertices (a.newLeaf x).2.out → ((∃ x, l = .var x) ↔ ¬ u.inner) := by
    intro u l hu
    rw [hav, List.mem_append, List.mem_singleton, Prod.mk.injEq] at hu
    rcases hu with hu | ⟨rfl, rfl⟩
    · exact h.leaves u l hu
    · simp [DName.inner]
  have hfix : ∀ n v, v.inner → Function.update ρ (.var a.nvars) n v = v := by
    intro n v hv
    rw [Function.update_of_ne (hv _)]
    exact h.fix v hv
  cases hm : b.vmap x with
  | some n =>
    have hb : b.mergedLeaf x = (n, b) := by simp [DrawSt.mergedLeaf, hm]
    rw [hb]
    have hin := (h.vmap x n).1 hm
    refine { nsums := h.nsums, nprods := h.nprods, fix := hfix n, edges := ?_, verts := ?_, distinct := h.distinct, vmap := ?_, usedb := h.usedb, useda := huseda, ends := hends, leaves := hleaves }
    · rw [hae, hmapE]
      exact h.edges
    · intro v l
      rw [hex, ← h.verts]
      refine ⟨Or.inl, ?_⟩
      rintro (hv | ⟨rfl, rfl⟩)
      · exact hv
      · exact (h.verts _ _).2 hin
    · intro y m
      rw [hex, ← h.vmap]
      refine ⟨Or.inl, ?_⟩
      rintro (hv | ⟨e, rfl⟩)
      · exact hv
      · rw [DLabel.var.injEq] at e
        rw [e]
        exact hm
  | none =>
    have hb : b.mergedLeaf x = (.var b.nvars, { b with nvars := b.nvars + 1, out := b.out ++ [.vertex (.var b.nvars) (.var x)], vmap := fun u => if u = x then some (.var b.nvars) else b.vmap u }) := by simp [DrawSt.mergedLeaf, hm]
    rw [hb]
    have hbv : vertices (b.out ++ [DStmt.vertex (.var b.nvars) (.var x)]) = vertices b.out ++ [(.var b.nvars, .var x)] := by simp [vertices_append, vertices]
    have hbn : dnames (b.out ++ [DStmt.vertex (.var b.nvars) (.var x)]) = dnames b.out ++ [.var b.nvars] := by simp [dnames, hbv]
    have hnew : DName.var b.nvars ∉ dnames b.out := fun hn => Nat.lt_irrefl _ (h.usedb _ hn)
    refine { nsums := h.nsums, nprods := h.nprods, fix := hfix _, edges := ?_, verts := ?_, distinct := ?_, vmap := ?_, usedb := ?_, useda := huseda, ends := hends, leaves := hleaves }
    · rw [hae, hmapE]
      simpa [edges_append, Spec.edges] using h.edges
    · intro v l
      simp only
      rw [hbv, hex, ← h.verts, List.mem_append, List.mem_singleton, Prod.mk.injEq]
      constructor
      · rintro (hv | ⟨rfl, rfl⟩)
        · exact Or.inl hv
        · exact Or.inr ⟨rfl, rfl⟩
      · rintro (hv | ⟨rfl, rfl⟩)
        · exact Or.inl hv
        · exact Or.inr ⟨rfl, rfl⟩
    · simp only
      rw [hbn]
      refine List.nodup_append.2 ⟨h.distinct, by simp, ?_⟩
      intro v hv u hu e
      rw [List.mem_singleton] at hu
      exact hnew (hu ▸ e ▸ hv)
    · intro y m
      simp only
      rw [hex, ← h.vmap]
      by_cases hy : y = x
      · subst hy
        rw [if_pos rfl, hm]
        simp
      · rw [if_neg hy]
        constructor
        · exact Or.inl
        · rintro (hv | ⟨e, _⟩)
          · exact hv
          · exact absurd (DLabel.var.inj e) hy
    · intro v hv
      simp only at hv
      rw [hbn, List.mem_append, List.mem_singleton] at hv
      rcases hv with hv | rfl
      · have := h.usedb v hv
        cases v with
        | var k => exact Nat.lt_succ_of_lt this
        | _ => exact this
      · exact Nat.lt_succ_self _

theorem MergeSim.self {N : Net ι F} {ρ : DName → DName} {a b : DrawSt F} (h : MergeSim ρ a b) {n : ι} (hn : ∀ l, N.kind n ≠ .leaf l) [GoFloat F] :
    MergeSim ρ (N.drawSelf n a).2 (N.drawSelf n b).2 ∧ (N.drawSelf n b).1 = (N.drawSelf n a).1 ∧ (N.drawSelf n a).1.inner ∧
      (N.drawSelf n a).2.used (N.drawSelf n a).1 ∧ ∀ v, a.used v → (N.drawSelf n a).2.used v := by
  obtain ⟨g1, g2, g3, g4⟩ := drawSelf_right hn a h.useda
  obtain ⟨k1, k2, k3, k4⟩ := drawSelf_right hn b h.usedb
  have he : (N.drawSelf n b).1 = (N.drawSelf n a).1 := by
    cases hk : N.kind n <;> simp [Net.drawSelf, hk, h.nsums, h.nprods]
  have hi : (N.drawSelf n a).1.inner := by
    intro k
    cases hk : N.kind n <;> simp [Net.drawSelf, hk]
  have hl : ∀ x, nodeLabel N n ≠ .var x := by
    intro x
    cases hk : N.kind n with
    | leaf l => exact absurd hk (hn l)
    | _ => simp [nodeLabel, hk]
  have hav : vertices (N.drawSelf n a).2.out = vertices a.out ++ [((N.drawSelf n a).1, nodeLabel N n)] := by simp [g2, vertices_append, vertices]
  have hbv : vertices (N.drawSelf n b).2.out = vertices b.out ++ [((N.drawSelf n a).1, nodeLabel N n)] := by simp [k2, vertices_append, vertices, he]
  have hae : Spec.edges (N.drawSelf n a).2.out = Spec.edges a.out := by simp [g2, edges_append, Spec.edges]
  have hbe : Spec.edges (N.drawSelf n b).2.out = Spec.edges b.out := by simp [k2, edges_append, Spec.edges]
  have hvm : (N.drawSelf n b).2.vmap = b.vmap := by cases hk : N.kind n <;> simp [Net.drawSelf, hk]
  refine ⟨?_, he, hi, g4, g3⟩
  refine { nsums := ?_, nprods := ?_, fix := h.fix, edges := ?_, verts := ?_, distinct := ?_, vmap := ?_, usedb := ?_, useda := ?_, ends := ?_, leaves := ?_ }
  · cases hk : N.kind n <;> simp [Net.drawSelf, hk, h.nsums]
  · cases hk : N.kind n <;> simp [Net.drawSelf, hk, h.nprods]
  · rw [hae, hbe]
    exact h.edges
  · intro v l
    rw [hav, hbv, List.mem_append, h.verts, List.mem_singleton, Prod.mk.injEq]
    constructor
    · rintro (⟨u, hu, e⟩ | ⟨rfl, rfl⟩)
      · exact ⟨u, List.mem_append_left _ hu, e⟩
      · exact ⟨_, List.mem_append_right _ (by simp), h.fix _ hi⟩
    · rintro ⟨u, hu, e⟩
      rw [List.mem_append, List.mem_singleton, Prod.mk.injEq] at hu
      rcases hu with hu | ⟨rfl, rfl⟩
      · exact Or.inl ⟨u, hu, e⟩
      · exact Or.inr ⟨by rw [← e, h.fix _ hi], rfl⟩
  · rw [dnames, hbv, List.map_append]
    refine List.nodup_append.2 ⟨h.distinct, by simp, ?_⟩
    intro v hv u hu e
    simp only [List.map_cons, List.map_nil, List.mem_singleton] at hu
    rw [hu, ← he] at e
    exact k1 (e ▸ hv)
  · intro x m
    rw [hvm, h.vmap, hav]
    constructor
    · rintro ⟨u, hu, e⟩
      exact ⟨u, List.mem_append_left _ hu, e⟩
    · rintro ⟨u, hu, e⟩
      rw [List.mem_append, List.mem_singleton, Prod.mk.injEq] at hu
      rcases hu with hu | ⟨_, hx⟩
      · exact ⟨u, hu, e⟩
      · exact absurd hx.symm (hl x)
  · intro v hv
    rw [dnames, hbv, List.map_append, List.mem_append] at hv
    rcases hv with hv | hv
    · exact k3 v (h.usedb v hv)
    · simp only [List.map_cons, List.map_nil, List.mem_singleton] at hv
      rw [hv, ← he]
      exact k4
  · intro v hv
    rw [dnames, hav, List.map_append, List.mem_append] at hv
    rcases hv with hv | hv
    · exact g3 v (h.useda v hv)
    · simp only [List.map_cons, List.map_nil, List.mem_singleton] at hv
      rw [hv]
      exact g4
  · intro e hee
    rw [hae] at hee
    exact ⟨g3 _ (h.ends e hee).1, g3 _ (h.ends e hee).2⟩
  · intro u l hu
    rw [hav, List.mem_append, List.mem_singleton, Prod.mk.injEq] at hu
    rcases hu with hu | ⟨rfl, rfl⟩
    · exact h.leaves u l hu
    · constructor
      · rintro ⟨x, hx⟩
        exact absurd hx (hl x)
      · intro hni
        exact absurd hi hni

variable [GoFloat F]

/-- The queue holds nodes that are no leaves, with parents that are no leaves. -/
def MergeQueue (N : Net ι F) (a : DrawSt F) (q : List (BFSPair ι F)) : Prop :=
  ∀ p ∈ q, (∀ l, N.kind p.1 ≠ .leaf l) ∧ ∀ u, p.2.1 = some u → u.inner ∧ a.used u

theorem drawKids_merge {N : Net ι F} {name : DName} (hi : name.inner) (isSum : Bool) (w : List F) :
    ∀ (cs : List ι) (i : Nat) (a b : DrawSt F) (q : Queue (BFSPair ι F)) (ρ : DName → DName), MergeSim ρ a b → a.used name → MergeQueue N a q.data →
      ∀ a' q', N.drawKids DrawSt.newLeaf name isSum w i cs a q = some (a', q') →
      ∃ b' ρ', N.drawKids DrawSt.mergedLeaf name isSum w i cs b q = some (b', q') ∧ MergeSim ρ' a' b' ∧ MergeQueue N a' q'.data := by
  intro cs
  induction cs with
  | nil =>
    intro i a b q ρ h hn hq a' q' he
    simp only [Net.drawKids, Option.some.injEq, Prod.mk.injEq] at he
    obtain ⟨rfl, rfl⟩ := he
    exact ⟨b, ρ, rfl, h, hq⟩
  | cons c cs ih =>
    intro i a b q ρ h hn hq a' q' he
    cases hk : N.kind c with
    | leaf l =>
      simp only [Net.drawKids, hk, Option.bind_eq_bind, Option.bind_eq_some_iff] at he ⊢
      obtain ⟨x, hx, lab, hlab, he⟩ := he
      have hname : Function.update ρ (.var a.nvars) (b.mergedLeaf x).1 name = name := by
        rw [Function.update_of_ne (hi _)]
        exact h.fix _ hi
      have hu1 : (a.newLeaf x).2.used name := used_newLeaf hn
      have hu2 : (a.newLeaf x).2.used (a.newLeaf x).1 := Nat.lt_succ_self _
      have hs := (h.leaf x).edge hu1 hu2 lab
      rw [hname, show Function.update ρ (.var a.nvars) (b.mergedLeaf x).1 (a.newLeaf x).1 = (b.mergedLeaf x).1 from Function.update_self ..] at hs
      have hkeep : ∀ v, a.used v → DrawSt.used { (a.newLeaf x).2 with out := (a.newLeaf x).2.out ++ [.edge name (a.newLeaf x).1 lab] } v := by
        intro v hv
        have := used_newLeaf (x := x) hv
        cases v <;> exact this
      obtain ⟨b', ρ', k1, k2, k3⟩ := ih (i + 1) _ _ q _ hs (hkeep _ hn)
        (fun p hp => ⟨(hq p hp).1, fun u hu => ⟨((hq p hp).2 u hu).1, hkeep u ((hq p hp).2 u hu).2⟩⟩) a' q' he
      exact ⟨b', ρ', ⟨x, hx, lab, hlab, k1⟩, k2, k3⟩
    | sum xs ws =>
      simp only [Net.drawKids, hk, Option.bind_eq_bind, Option.bind_eq_some_iff] at he ⊢
      obtain ⟨tw, ht, he⟩ := he
      obtain ⟨b', ρ', k1, k2, k3⟩ := ih (i + 1) a b _ ρ h hn (by
        intro p hp
        simp only [Queue.enqueue, List.mem_append, List.mem_singleton] at hp
        rcases hp with hp | rfl
        · exact hq p hp
        · exact ⟨by simp [hk], fun u hu => by cases hu; exact ⟨hi, hn⟩⟩) a' q' he
      exact ⟨b', ρ', ⟨tw, ht, k1⟩, k2, k3⟩
    | product xs =>
      simp only [Net.drawKids, hk, Option.bind_eq_bind, Option.bind_eq_some_iff] at he ⊢
      obtain ⟨tw, ht, he⟩ := he
      obtain ⟨b', ρ', k1, k2, k3⟩ := ih (i + 1) a b _ ρ h hn (by
        intro p hp
        simp only [Queue.enqueue, List.mem_append, List.mem_singleton] at hp
        rcases hp with hp | rfl
        · exact hq p hp
        · exact ⟨by simp [hk], fun u hu => by cases hu; exact ⟨hi, hn⟩⟩) a' q' he
      exact ⟨b', ρ', ⟨tw, ht, k1⟩, k2, k3⟩

theorem drawNode_merge {N : Net ι F} {a b : DrawSt F} {q : Queue (BFSPair ι F)} {ρ : DName → DName} (h : MergeSim ρ a b) {p : BFSPair ι F}
    (hq : MergeQueue N a (p :: q.data)) {a' : DrawSt F} {q' : Queue (BFSPair ι F)} (he : N.drawNode DrawSt.newLeaf p a q = some (a', q')) :
    ∃ b' ρ', N.drawNode DrawSt.mergedLeaf p b q = some (b', q') ∧ MergeSim ρ' a' b' ∧ MergeQueue N a' q'.data := by
  obtain ⟨n, pn, pw⟩ := p
  obtain ⟨hl, hp⟩ := hq (n, pn, pw) (by simp)
  obtain ⟨g1, g2, g3, g4, g5⟩ := h.self hl
  have hup : MergeSim ρ (drawUp (N.drawSelf n a).1 pn pw (N.drawSelf n a).2) (drawUp (N.drawSelf n a).1 pn pw (N.drawSelf n b).2) ∧
      ∀ v, (N.drawSelf n a).2.used v → (drawUp (N.drawSelf n a).1 pn pw (N.drawSelf n a).2).used v := by
    cases pn with
    | none => exact ⟨g1, fun v hv => hv⟩
    | some u =>
      obtain ⟨hui, huu⟩ := hp u rfl
      have := g1.edge (g5 u huu) g4 (if GoFloat.le (GoFloat.ofInt 0) pw then some pw else none)
      rw [g1.fix _ hui, g1.fix _ g3] at this
      exact ⟨this, fun v hv => by cases v <;> exact hv⟩
  obtain ⟨hs, hu⟩ := hup
  have hq' : MergeQueue N (drawUp (N.drawSelf n a).1 pn pw (N.drawSelf n a).2) q.data := by
    intro p hp
    obtain ⟨k1, k2⟩ := hq p (List.mem_cons_of_mem _ hp)
    exact ⟨k1, fun u hu' => ⟨(k2 u hu').1, hu u (g5 u (k2 u hu').2)⟩⟩
  simp only [Net.drawNode] at he ⊢
  rw [g2]
  cases hk : N.kind n with
  | leaf l => exact absurd hk (hl l)
  | sum cs w =>
    simp only [hk] at he ⊢
    exact drawKids_merge g3 true w cs 0 _ _ q ρ hs (hu _ g4) hq' a' q' he
  | product cs =>
    simp only [hk] at he ⊢
    exact drawKids_merge g3 false [] cs 0 _ _ q ρ hs (hu _ g4) hq' a' q' he

theorem drawLoop_merge {N : Net ι F} : ∀ (fuel : Nat) (a b : DrawSt F) (q : Queue (BFSPair ι F)) (ρ : DName → DName), MergeSim ρ a b → MergeQueue N a q.data →
    ∀ a', N.drawLoop DrawSt.newLeaf fuel a q = some a' → ∃ b' ρ', N.drawLoop DrawSt.mergedLeaf fuel b q = some b' ∧ MergeSim ρ' a' b' := by
  intro fuel
  induction fuel with
  | zero =>
    intro a b q ρ h hq a' he
    simp only [Net.drawLoop] at he ⊢
    split at he
    · rename_i hqe
      cases he
      exact ⟨b, ρ, by rw [if_pos hqe], h⟩
    · cases he
  | succ fuel ih =>
    intro a b q ρ h hq a' he
    simp only [Net.drawLoop] at he ⊢
    split at he
    · rename_i hqe
      cases he
      exact ⟨b, ρ, by rw [if_pos hqe], h⟩
    · rename_i hqe
      rw [if_neg hqe]
      simp only [Option.bind_eq_bind, Option.bind_eq_some_iff] at he ⊢
      obtain ⟨⟨p, q1⟩, hp, ⟨a1, q2⟩, hn, he⟩ := he
      have hqd : q.data = p :: q1.data := by
        unfold Queue.dequeue at hp
        split at hp
        · cases hp
        · rename_i e rest hd
          simp only [Option.some.injEq, Prod.mk.injEq] at hp
          obtain ⟨rfl, rfl⟩ := hp
          simpa using hd
      rw [hqd] at hq
      obtain ⟨b1, ρ1, k1, k2, k3⟩ := drawNode_merge h hq hn
      obtain ⟨b2, ρ2, l1, l2⟩ := ih a1 b1 q2 ρ1 k2 k3 a' he
      exact ⟨b2, ρ2, ⟨(p, q1), hp, (b1, q2), k1, l1⟩, l2⟩

theorem drawGraphTools_merge {N : Net ι F} {r : ι} (hr : ∀ l, N.kind r ≠ .leaf l) {fuel : Nat} {d : List (DStmt F)} (hd : N.drawGraph fuel r = some d) :
    ∃ a b ρ, d = a.out ∧ N.drawGraphTools fuel r = some b.out ∧ MergeSim ρ a b := by
  have hdl : ∃ a, N.drawLoop DrawSt.newLeaf fuel .init (Queue.new.enqueue (r, none, GoFloat.ofInt (-1))) = some a ∧ d = a.out := by
    cases hk : N.kind r with
    | leaf l => exact absurd hk (hr l)
    | _ =>
      simp only [Net.drawGraph, hk, Option.map_eq_some_iff] at hd
      obtain ⟨a, ha, e⟩ := hd
      exact ⟨a, ha, e.symm⟩
  obtain ⟨a, ha, rfl⟩ := hdl
  obtain ⟨b, ρ, hb, hs⟩ := drawLoop_merge (N := N) fuel .init .init _ id MergeSim.start (by
    intro p hp
    simp only [Queue.enqueue, Queue.new, List.nil_append, List.mem_singleton] at hp
    subst hp
    exact ⟨hr, fun u hu => by cases hu⟩) a ha
  refine ⟨a, b, ρ, rfl, ?_, hs⟩
  cases hk : N.kind r with
  | leaf l => exact absurd hk (hr l)
  | _ => simp [Net.drawGraphTools, hk, hb]

theorem MergeSim.merges {ρ : DName → DName} {a b : DrawSt F} (h : MergeSim ρ a b) : Merges a.out b.out ρ := by
  refine { distinct := h.distinct, verts := h.verts, edges := h.edges, same := ?_ }
  intro u l v m hu hv
  constructor
  · intro e
    have h1 := (h.verts (ρ u) l).2 ⟨u, hu, rfl⟩
    have h2 := (h.verts (ρ u) m).2 ⟨v, hv, e.symm⟩
    have hlm : l = m := by simpa using List.inj_on_of_nodup_map h.distinct h1 h2 rfl
    subst hlm
    by_cases hx : ∃ x, l = .var x
    · exact Or.inr ⟨rfl, hx⟩
    · have iu : u.inner := by
        by_contra hc
        exact hx ((h.leaves u l hu).2 hc)
      have iv : v.inner := by
        by_contra hc
        exact hx ((h.leaves v l hv).2 hc)
      rw [h.fix u iu, h.fix v iv] at e
      exact Or.inl e
  · rintro (rfl | ⟨rfl, x, rfl⟩)
    · rfl
    · have h1 := (h.vmap x (ρ u)).2 ⟨u, hu, rfl⟩
      have h2 := (h.vmap x (ρ v)).2 ⟨v, hv, rfl⟩
      rw [h1] at h2
      exact Option.some.inj h2

end Gospn
