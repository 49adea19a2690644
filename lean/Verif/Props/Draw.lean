/-
C98: what `DrawGraph` and `DrawGraphTools` draw.
-/
import Verif.Proofs.DrawMerge
import Verif.Model.Real

set_option linter.unusedSectionVars false
set_option linter.unusedSimpArgs false

namespace Gospn
open Spec
variable {ι F : Type}

section Any
variable [GoFloat F]

/-- The file of `DrawGraph` unfolds every network without cycles: one vertex per path from the root, its edges being the links of the node the
path ends in. Every node below the root is drawn, and exactly once if no node is shared. Missing in general: once (`C98_dot_refuted`). -/
theorem C98_dot_partial (N : Net ι F) (r : ι) (hac : Acyclic N.ch) (hneg : GoFloat.le (GoFloat.ofInt 0 : F) (GoFloat.ofInt (-1)) = false)
    (hd : Drawable N r) (hr : ∀ l, N.kind r ≠ .leaf l) :
    ∃ paths : ι → Nat, CountsPaths N paths ∧ ∃ d node top, (∀ fuel ≥ paths r, N.drawGraph fuel r = some d) ∧ Unfolds N r d node top ∧
      (vertices d).length = paths r ∧ (∀ n, Reach N.ch r n ↔ ∃ v ∈ (vertices d).map (·.1), node v = n) ∧ (Unshared N r → Draws N r d node top) := by
  obtain ⟨paths, hp⟩ := exists_paths hac
  obtain ⟨d, node, top, h1, h2, h3⟩ := drawGraph_right hp hneg hd hr (Nat.le_refl _)
  have hw : ∀ n, Reach N.ch r n → ∀ cs w, N.kind n = .sum cs w → w.length = cs.length := fun n hn cs w hk => (hd.weights n hn cs w hk).1
  refine ⟨paths, hp, d, node, top, fun fuel hf => drawGraph_mono h1 hf, h2.unfolds, by simpa [dnames] using h3, ?_, h2.unfolds.draws hac h2.reach hw⟩
  intro n
  refine ⟨h2.unfolds.onto hw n, ?_⟩
  rintro ⟨v, hv, rfl⟩
  exact h2.reach v hv

/-- A network that is a single leaf is drawn as a vertex for the variable 1: rightly only if that is its variable. -/
theorem C98_leaf (N : Net ι F) (r : ι) (l : Leaf F) (hl : N.kind r = .leaf l) (fuel : Nat) :
    N.drawGraphTools fuel r = some [.badCall] ∧
    ∃ d, N.drawGraph fuel r = some d ∧ ((∃ node top, Draws N r d node top) ↔ leafVar l = 1) := by
  refine ⟨by simp [Net.drawGraphTools, hl], _, by simp only [Net.drawGraph, hl]; rfl, ?_⟩
  have hlk : links N r = [] := by simp [links, hl]
  have hch : N.ch r = [] := by simp [Net.ch, hl]
  have hlb : nodeLabel N r = .var (leafVar l) := by simp [nodeLabel, hl]
  constructor
  · rintro ⟨node, top, h⟩
    have ht := h.top_mem
    simp only [vertices, List.map_cons, List.map_nil, List.mem_singleton] at ht
    have := h.labels (.var 1) (.var 1) (by simp [vertices])
    rw [← ht, h.top_node, hlb] at this
    simpa using this.symm
  · intro h1
    have hs := DrawCore.start N r (.var 1) (fun _ => []) (by simp [hlk])
    rw [hlb, h1] at hs
    refine ⟨fun _ => r, .var 1, { hs.unfolds with onto := ?_, once := ?_ }⟩
    · intro n
      constructor
      · intro hn
        refine ⟨.var 1, by simp [vertices], ?_⟩
        cases Relation.ReflTransGen.cases_head hn with
        | inl e => exact e
        | inr e =>
          obtain ⟨c, hc, _⟩ := e
          rw [hch] at hc
          cases hc
      · rintro ⟨_, _, rfl⟩
        exact .refl
    · intro v hv u hu _
      simp only [vertices, List.map_cons, List.map_nil, List.mem_singleton] at hv hu
      rw [hv, hu]

/-- `DrawGraphTools` draws what `DrawGraph` does, after merging all the vertices of each variable. -/
theorem C98_tools_partial (N : Net ι F) (r : ι) (hr : ∀ l, N.kind r ≠ .leaf l) (fuel : Nat) (d : List (DStmt F)) (hd : N.drawGraph fuel r = some d) :
    ∃ d' ρ, N.drawGraphTools fuel r = some d' ∧ Merges d d' ρ := by
  obtain ⟨a, b, ρ, rfl, h, hs⟩ := drawGraphTools_merge hr hd
  exact ⟨b.out, ρ, h, hs.merges⟩

/-- Two leaves of one variable, such as the components of a mixture, are never drawn as two vertices by `DrawGraphTools`. -/
theorem C98_tools_refuted (N : Net ι F) (r n m : ι) (l l' : Leaf F) (hac : Acyclic N.ch) (hneg : GoFloat.le (GoFloat.ofInt 0 : F) (GoFloat.ofInt (-1)) = false)
    (hd : Drawable N r) (hn : Reach N.ch r n) (hm : Reach N.ch r m) (hnm : n ≠ m) (hl : N.kind n = .leaf l) (hl' : N.kind m = .leaf l') (hv : leafVar l = leafVar l') :
    ∃ k d', (∀ fuel ≥ k, N.drawGraphTools fuel r = some d') ∧ ∀ node top, ¬ Draws N r d' node top := by
  have hr : ∀ l, N.kind r ≠ .leaf l := by
    intro l0 h0
    have hch : N.ch r = [] := by simp [Net.ch, h0]
    have : ∀ x, Reach N.ch r x → x = r := by
      intro x hx
      cases Relation.ReflTransGen.cases_head hx with
      | inl e => exact e.symm
      | inr e =>
        obtain ⟨c, hc, _⟩ := e
        rw [hch] at hc
        cases hc
    exact hnm ((this n hn).trans (this m hm).symm)
  obtain ⟨paths, _, d, _, _, h1, _⟩ := C98_dot_partial N r hac hneg hd hr
  obtain ⟨d', ρ, h2, h3⟩ := C98_tools_partial N r hr _ d (h1 _ (Nat.le_refl _))
  refine ⟨paths r, d', fun fuel hf => drawGraphTools_mono h2 hf, fun node top hD => ?_⟩
  have one : ∀ x v u, (v, DLabel.var x) ∈ vertices d' → (u, DLabel.var x) ∈ vertices d' → v = u := by
    intro x v u hv hu
    obtain ⟨a, ha, rfl⟩ := (h3.verts _ _).1 hv
    obtain ⟨b, hb, rfl⟩ := (h3.verts _ _).1 hu
    exact (h3.same a _ b _ ha hb).2 (Or.inr ⟨rfl, x, rfl⟩)
  obtain ⟨v, hv1, hv2⟩ := (hD.onto n).1 hn
  obtain ⟨u, hu1, hu2⟩ := (hD.onto m).1 hm
  obtain ⟨⟨v, lv⟩, hv3, rfl⟩ := List.mem_map.1 hv1
  obtain ⟨⟨u, lu⟩, hu3, rfl⟩ := List.mem_map.1 hu1
  have e1 := hD.labels v lv hv3
  have e2 := hD.labels u lu hu3
  simp only at hv2 hu2
  rw [hv2, show nodeLabel N n = .var (leafVar l) by simp [nodeLabel, hl]] at e1
  rw [hu2, show nodeLabel N m = .var (leafVar l) by simp [nodeLabel, hl', hv]] at e2
  subst e1 e2
  have := one _ v u hv3 hu3
  subst this
  exact hnm (hv2.symm.trans hu2)

end Any

/-! The network of layers: every sum is a mixture of two products, both of which have the sum of the layer below as their only child. -/

/-- The nodes: the sums `s k` and the products `a k`, `b k` above them. -/
inductive LNode
  | s (k : Nat)
  | a (k : Nat)
  | b (k : Nat)
  deriving DecidableEq

/-- The network; the lowest node is an indicator. -/
noncomputable def layers : Net LNode XR where
  kind
    | .s 0 => .leaf (.indicator 0 0)
    | .s (k + 1) => .sum [.a k, .b k] [.fin (1 / 2), .fin (1 / 2)]
    | .a k => .product [.s k]
    | .b k => .product [.s k]

/-- All nodes up to the sum `k`. -/
def layerNodes : Nat → List LNode
  | 0 => [.s 0]
  | k + 1 => .s (k + 1) :: .a k :: .b k :: layerNodes k

theorem layerNodes_length (k : Nat) : (layerNodes k).length = 3 * k + 1 := by
  induction k with
  | zero => rfl
  | succ k ih => simp only [layerNodes, List.length_cons, ih]; omega

theorem layerNodes_closed (k : Nat) : ∀ n ∈ layerNodes k, ∀ c ∈ layers.ch n, c ∈ layerNodes k := by
  induction k with
  | zero => intro n hn; simp only [layerNodes, List.mem_singleton] at hn; subst hn; simp [Net.ch, layers]
  | succ k ih =>
    have hs : LNode.s k ∈ layerNodes k := by cases k <;> simp [layerNodes]
    intro n hn c hc
    simp only [layerNodes, List.mem_cons] at hn ⊢
    rcases hn with rfl | rfl | rfl | hn
    · simp only [Net.ch, layers, List.mem_cons, List.not_mem_nil, or_false] at hc
      rcases hc with rfl | rfl <;> simp
    · simp only [Net.ch, layers, List.mem_singleton] at hc
      subst hc
      exact Or.inr (Or.inr (Or.inr hs))
    · simp only [Net.ch, layers, List.mem_singleton] at hc
      subst hc
      exact Or.inr (Or.inr (Or.inr hs))
    · exact Or.inr (Or.inr (Or.inr (ih n hn c hc)))

theorem layers_reach (k : Nat) (n : LNode) (h : Reach layers.ch (.s k) n) : n ∈ layerNodes k := by
  induction h with
  | refl => cases k <;> simp [layerNodes]
  | tail _ hc ih => exact layerNodes_closed k _ ih _ hc

theorem layers_acyclic : Acyclic layers.ch := by
  refine ⟨fun | .s k => 2 * k | .a k => 2 * k + 1 | .b k => 2 * k + 1, fun u c hc => ?_⟩
  cases u with
  | s k =>
    cases k with
    | zero => simp [Net.ch, layers] at hc
    | succ k =>
      simp only [Net.ch, layers, List.mem_cons, List.not_mem_nil, or_false] at hc
      rcases hc with rfl | rfl <;> simp only <;> omega
  | a k => simp only [Net.ch, layers, List.mem_singleton] at hc; subst hc; simp
  | b k => simp only [Net.ch, layers, List.mem_singleton] at hc; subst hc; simp

theorem layers_drawable (r : LNode) : Drawable layers r where
  weights := by
    intro n _ cs w hk
    cases n with
    | s k =>
      cases k with
      | zero => simp [layers] at hk
      | succ k =>
        simp only [layers, Kind.sum.injEq] at hk
        obtain ⟨rfl, rfl⟩ := hk
        refine ⟨rfl, fun x hx => ?_⟩
        simp only [List.mem_cons, List.not_mem_nil, or_false, or_self] at hx
        subst hx
        simp [GoFloat.le, GoFloat.ofInt, XR.lt, XR.eq]
    | a k => simp [layers] at hk
    | b k => simp [layers] at hk
  scopes := by
    intro n l _ hk
    cases n with
    | s k =>
      cases k with
      | zero =>
        simp only [layers, Kind.leaf.injEq] at hk
        subst hk
        rfl
      | succ k => simp [layers] at hk
    | a k => simp [layers] at hk
    | b k => simp [layers] at hk

theorem XR_neg : GoFloat.le (GoFloat.ofInt 0 : XR) (GoFloat.ofInt (-1)) = false := by
  simp [GoFloat.le, GoFloat.ofInt, XR.lt, XR.eq]

theorem layers_paths {paths : LNode → Nat} (h : CountsPaths layers paths) (k : Nat) : 3 * 2 ^ k + k ≤ paths (.s k) + 2 + k ∧ (1 ≤ k → 3 * k + 1 < paths (.s k)) := by
  have h0 : paths (.s 0) = 1 := by rw [h]; simp [Net.ch, layers]
  have ha : ∀ k, paths (.a k) = 1 + paths (.s k) := fun k => by rw [h]; simp [Net.ch, layers]
  have hb : ∀ k, paths (.b k) = 1 + paths (.s k) := fun k => by rw [h]; simp [Net.ch, layers]
  have hs : ∀ k, paths (.s (k + 1)) = 3 + 2 * paths (.s k) := by
    intro k
    rw [h]
    simp only [Net.ch, layers, List.map_cons, List.map_nil, List.sum_cons, List.sum_nil, ha, hb]
    omega
  induction k with
  | zero => simp [h0]
  | succ k ih =>
    rw [hs, Nat.pow_succ]
    refine ⟨by omega, fun _ => ?_⟩
    cases k with
    | zero => rw [h0]; omega
    | succ k =>
      have := ih.2 (by omega)
      omega

/-- A node is drawn once for every path to it: the network `layers` has `3 k + 1` nodes below its root `s k`, and its drawing has at least `2 ^ k`
vertices. -/
theorem C98_dot_refuted (k : Nat) (hk : 1 ≤ k) :
    (∃ l : List LNode, l.length = 3 * k + 1 ∧ ∀ n, Reach layers.ch (.s k) n → n ∈ l) ∧
    ∃ d, (∃ m, ∀ fuel ≥ m, layers.drawGraph fuel (.s k) = some d) ∧ 2 ^ k ≤ (vertices d).length ∧ ∀ node top, ¬ Draws layers (.s k) d node top := by
  refine ⟨⟨layerNodes k, layerNodes_length k, layers_reach k⟩, ?_⟩
  obtain ⟨k, rfl⟩ : ∃ j, k = j + 1 := ⟨k - 1, by omega⟩
  have hr : ∀ l, layers.kind (.s (k + 1)) ≠ .leaf l := by simp [layers]
  obtain ⟨paths, hp, d, node, top, h1, h2, h3, _⟩ := C98_dot_partial layers (.s (k + 1)) layers_acyclic XR_neg (layers_drawable _) hr
  obtain ⟨c1, c2⟩ := layers_paths hp (k + 1)
  refine ⟨d, ⟨paths (.s (k + 1)), h1⟩, by omega, fun node' top' hD => ?_⟩
  · have hnd : (((vertices d).map (·.1)).map node').Nodup := by
      refine List.Nodup.map_on ?_ hD.distinct
      intro x hx y hy e
      exact hD.once x hx y hy e
    have hsub : ((vertices d).map (·.1)).map node' ⊆ layerNodes (k + 1) := by
      intro x hx
      obtain ⟨v, hv, rfl⟩ := List.mem_map.1 hx
      exact layers_reach _ _ ((hD.onto _).2 ⟨v, hv, rfl⟩)
    have := (List.subperm_of_subset hnd hsub).length_le
    rw [layerNodes_length, List.length_map, List.length_map] at this
    have := c2 (by omega)
    omega

/-! A concrete case: the mixture of a product of two leaves and of a product that shares none of them. -/

/-- A sum of two products of indicators of the variables 3 and 4; no node is shared. -/
noncomputable def smallTree : Net (Fin 7) XR where
  kind n := match n with
    | 0 => .sum [1, 2] [.fin (1 / 4), .fin (3 / 4)]
    | 1 => .product [3, 4]
    | 2 => .product [5, 6]
    | 3 => .leaf (.indicator 3 0)
    | 4 => .leaf (.indicator 4 0)
    | 5 => .leaf (.indicator 3 1)
    | 6 => .leaf (.indicator 4 1)

theorem smallTree_acyclic : Acyclic smallTree.ch := by
  refine ⟨fun n => 7 - n.val, ?_⟩
  intro u c hc
  fin_cases u <;> simp [Net.ch, smallTree] at hc <;> rcases hc with rfl | rfl <;> decide

theorem smallTree_drawable : Drawable smallTree 0 where
  weights := by
    intro n _ cs w hk
    fin_cases n <;> simp only [smallTree, Kind.sum.injEq, reduceCtorEq] at hk
    obtain ⟨rfl, rfl⟩ := hk
    refine ⟨rfl, fun x hx => ?_⟩
    simp only [List.mem_cons, List.not_mem_nil, or_false] at hx
    rcases hx with rfl | rfl <;> simp [GoFloat.le, GoFloat.ofInt, XR.lt, XR.eq]
  scopes := by
    intro n l _ hk
    fin_cases n <;> simp only [smallTree, Kind.leaf.injEq, reduceCtorEq] at hk <;> subst hk <;> rfl

theorem smallTree_unshared : Unshared smallTree 0 where
  root := by intro n _; fin_cases n <;> simp [Net.ch, smallTree]
  once := by intro n _; fin_cases n <;> simp [Net.ch, smallTree]
  parent := by
    intro n m c _ _ hn hm
    fin_cases n <;> simp [Net.ch, smallTree] at hn <;> fin_cases m <;> simp [Net.ch, smallTree] at hm <;>
      first | rfl | (rcases hn with rfl | rfl <;> revert hm <;> decide)

/-- The hypotheses of `C98_dot_partial` can be met, with no node shared. -/
example : ∃ paths : Fin 7 → Nat, CountsPaths smallTree paths ∧ ∃ d node top, (∀ fuel ≥ paths 0, smallTree.drawGraph fuel 0 = some d) ∧
    Draws smallTree 0 d node top := by
  obtain ⟨paths, hp, d, node, top, h1, _, _, _, h5⟩ := C98_dot_partial smallTree 0 smallTree_acyclic XR_neg smallTree_drawable (by simp [smallTree])
  exact ⟨paths, hp, d, node, top, h1, h5 smallTree_unshared⟩

/-- The hypotheses of `C98_tools_partial` and `C98_tools_refuted` can be met. -/
example : ∃ k d', (∀ fuel ≥ k, smallTree.drawGraphTools fuel 0 = some d') ∧ ∀ node top, ¬ Draws smallTree 0 d' node top :=
  C98_tools_refuted smallTree 0 3 5 (.indicator 3 0) (.indicator 3 1) smallTree_acyclic XR_neg smallTree_drawable
    (Relation.ReflTransGen.tail (Relation.ReflTransGen.single (b := 1) (by simp [Net.ch, smallTree])) (by simp [Net.ch, smallTree]))
    (Relation.ReflTransGen.tail (Relation.ReflTransGen.single (b := 2) (by simp [Net.ch, smallTree])) (by simp [Net.ch, smallTree]))
    (by decide) rfl rfl rfl

/-- The hypothesis of `C98_leaf` can be met by a leaf that is drawn wrongly. -/
example : ∃ d, smallTree.drawGraph 0 3 = some d ∧ ¬ ∃ node top, Draws smallTree 3 d node top := by
  obtain ⟨_, d, h1, h2⟩ := C98_leaf smallTree 3 (.indicator 3 0) rfl 0
  refine ⟨d, h1, fun h => ?_⟩
  have := h2.1 h
  simp [leafVar] at this

end Gospn
