/-
The structure learning of learn/dennis: C77.
-/
import Verif.Proofs.DennisNet
import Verif.Props.Structure
import Verif.Props.Stats
import Verif.Proofs.DataParts
import Verif.Proofs.Shape

set_option linter.unusedSectionVars false
set_option linter.unusedSimpArgs false

namespace Gospn
open Spec GoFloat
variable {F : Type} [GoFloat F]

/-! ### The children of the nodes -/

theorem normalized_ch_sum (st : DState F) (s : Scope) (i : Nat) : st.net.normalized.ch (.sum s i) = (st.kids (.sum s i)).map (·.1) := rfl

theorem normalized_ch_prod (st : DState F) (s a b : Scope) (j : Nat) : st.net.normalized.ch (.prod s a b j) = st.pch (.prod s a b j) := rfl

theorem normalized_ch_leaf (st : DState F) (v : Int) (i : Nat) : st.net.normalized.ch (.leaf v i) = [] := by
  unfold Net.ch Net.normalized DState.net
  dsimp only
  cases (st.gauss v)[i]? <;> rfl

/-- The variables a node is about. -/
def DNode.vars : DNode → Scope
  | .leaf v _ => {v}
  | .sum s _ => s
  | .prod s _ _ _ => s

/-- The nodes that `buildSPN` connects. -/
def DNode.good (G : RGraph) (rs : List Scope) (st : DState F) : DNode → Prop
  | .leaf v i => {v} ∈ rs ∧ i < (st.gauss v).length
  | .sum s i => s ∈ rs ∧ .sum s i ∈ st.rep s
  | .prod s a b j => s ∈ rs ∧ (a, b) ∈ G.ch s ∧ j < (st.rep a).length * (st.rep b).length

section Net
variable {G : RGraph} {root : Scope} {m : Nat} {rs : List Scope} {st : DState F}

theorem rep_good (h : BInv G root m rs st) {s : Scope} (hs : s ∈ rs) {n : DNode} (hn : n ∈ st.rep s) : n.good G rs st ∧ n.vars = s := by
  rcases h.rep s hs with ⟨_, e⟩ | ⟨_, v, rfl, _, e⟩ | ⟨_, _, e⟩
  · have hn' := hn
    rw [e, List.mem_singleton] at hn'
    subst hn'
    exact ⟨⟨hs, hn⟩, rfl⟩
  · rw [e] at hn
    obtain ⟨i, hi, rfl⟩ := List.mem_map.1 hn
    exact ⟨⟨hs, List.mem_range.1 hi⟩, rfl⟩
  · have hn' := hn
    rw [e] at hn'
    obtain ⟨i, hi, rfl⟩ := List.mem_map.1 hn'
    exact ⟨⟨hs, hn⟩, rfl⟩

theorem rep_ne (hm : 0 < m) (h : BInv G root m rs st) {s : Scope} (hs : s ∈ rs) : st.rep s ≠ [] := by
  rcases h.rep s hs with ⟨_, e⟩ | ⟨_, v, rfl, h1, e⟩ | ⟨_, _, e⟩
  · rw [e]
    simp
  · rw [e]
    simpa using h1
  · rw [e]
    simp
    omega

theorem kids_cases (h : BInv G root m rs st) (s : Scope) (i : Nat) :
    ((s ∈ rs ∧ DNode.sum s i ∈ st.rep s) ∧ st.net.normalized.ch (.sum s i) = (G.ch s).flatMap (prodsOf st.rep s)) ∨ st.net.normalized.ch (.sum s i) = [] := by
  rw [normalized_ch_sum]
  by_cases hs : s ∈ rs
  · by_cases hi : DNode.sum s i ∈ st.rep s
    · exact Or.inl ⟨⟨hs, hi⟩, h.kids s hs i hi⟩
    · exact Or.inr (by rw [h.kids1 s hs i hi]; rfl)
  · exact Or.inr (by rw [h.kids0 s hs i]; rfl)

theorem mem_flatMap_prods {rep : Scope → List DNode} {s : Scope} {n : DNode} : n ∈ (G.ch s).flatMap (prodsOf rep s) ↔
    ∃ a b j, (a, b) ∈ G.ch s ∧ j < (rep a).length * (rep b).length ∧ n = .prod s a b j := by
  simp only [List.mem_flatMap, prodsOf, List.mem_map, List.mem_range]
  constructor
  · rintro ⟨⟨a, b⟩, hp, j, hj, rfl⟩
    exact ⟨a, b, j, hp, hj, rfl⟩
  · rintro ⟨a, b, j, hp, hj, rfl⟩
    exact ⟨(a, b), hp, j, hj, rfl⟩

theorem prod_cases (h : BInv G root m rs st) (s a b : Scope) (j : Nat) :
    ((s ∈ rs ∧ (a, b) ∈ G.ch s ∧ j < (st.rep a).length * (st.rep b).length) ∧ ∃ c ∈ st.rep a, ∃ d ∈ st.rep b, st.net.normalized.ch (.prod s a b j) = [c, d]) ∨
      st.net.normalized.ch (.prod s a b j) = [] := by
  rw [normalized_ch_prod]
  by_cases hs : s ∈ rs
  · by_cases hj : (a, b) ∈ G.ch s ∧ j < (st.rep a).length * (st.rep b).length
    · left
      have e := h.pch s hs (a, b) hj.1 j hj.2
      have hjp : j < (pairsOf st.rep (a, b)).length := by rw [pairsOf_length]; exact hj.2
      rw [List.getElem?_eq_getElem hjp, Option.getD_some] at e
      obtain ⟨c, hc, d, hd, hcd⟩ := mem_pairsOf.1 (List.getElem_mem hjp)
      exact ⟨⟨hs, hj⟩, c, hc, d, hd, by rw [e, hcd]⟩
    · exact Or.inr (h.pch1 s hs a b j hj)
  · exact Or.inr (h.pch0 s hs a b j)

/-- The children of the nodes that are connected are connected, and what they are about. -/
theorem child_good (h : BInv G root m rs st) (hcl : ∀ s ∈ rs, ∀ p ∈ G.ch s, p.1 ∈ rs ∧ p.2 ∈ rs) {n c : DNode} (hc : c ∈ st.net.normalized.ch n) : c.good G rs st := by
  cases n with
  | leaf v i => rw [normalized_ch_leaf] at hc; cases hc
  | sum s i =>
    rcases kids_cases h s i with ⟨⟨h1, h2⟩, e⟩ | e
    · rw [e, mem_flatMap_prods] at hc
      obtain ⟨a, b, j, hp, hj, rfl⟩ := hc
      exact ⟨h1, hp, hj⟩
    · rw [e] at hc; cases hc
  | prod s a b j =>
    rcases prod_cases h s a b j with ⟨⟨h1, h2, h3⟩, x, hx, y, hy, e⟩ | e
    · rw [e] at hc
      simp only [List.mem_cons, List.not_mem_nil, or_false] at hc
      rcases hc with rfl | rfl
      · exact (rep_good h (hcl s h1 _ h2).1 hx).1
      · exact (rep_good h (hcl s h1 _ h2).2 hy).1
    · rw [e] at hc; cases hc

/-- Ranks that decrease from a node to its children. -/
def DNode.rank : DNode → Nat
  | .leaf _ _ => 0
  | .sum s _ => 2 * s.card + 1
  | .prod s _ _ _ => 2 * s.card

theorem child_rank (hG : RInv root G) (h : BInv G root m rs st) (hcl : ∀ s ∈ rs, ∀ p ∈ G.ch s, p.1 ∈ rs ∧ p.2 ∈ rs) {n c : DNode} (hc : c ∈ st.net.normalized.ch n) : c.rank < n.rank := by
  cases n with
  | leaf v i => rw [normalized_ch_leaf] at hc; cases hc
  | sum s i =>
    rcases kids_cases h s i with ⟨⟨h1, h2⟩, e⟩ | e
    · rw [e, mem_flatMap_prods] at hc
      obtain ⟨a, b, j, hp, hj, rfl⟩ := hc
      exact Nat.lt_succ_self _
    · rw [e] at hc; cases hc
  | prod s a b j =>
    rcases prod_cases h s a b j with ⟨⟨h1, h2, h3⟩, x, hx, y, hy, e⟩ | e
    · have hlt := (hG.split s _ h2).2.2.2.card_lt
      dsimp only at hlt
      have key : ∀ {z : DNode} {r : Scope}, r ∈ rs → z ∈ st.rep r → r.card < s.card → z.rank < 2 * s.card := by
        intro z r hr hz hrs
        have hv := (rep_good h hr hz).2
        cases z with
        | leaf v i =>
          show 0 < 2 * s.card
          omega
        | sum s' i =>
          have : s' = r := hv
          subst this
          show 2 * s'.card + 1 < 2 * s.card
          omega
        | prod s' a' b' i =>
          have : s' = r := hv
          subst this
          show 2 * s'.card < 2 * s.card
          omega
      rw [e] at hc
      simp only [List.mem_cons, List.not_mem_nil, or_false] at hc
      rcases hc with rfl | rfl
      · exact key (hcl s h1 _ h2).1 hx hlt.1
      · exact key (hcl s h1 _ h2).2 hy hlt.2
    · rw [e] at hc; cases hc

theorem child_vars (hG : RInv root G) (h : BInv G root m rs st) (hcl : ∀ s ∈ rs, ∀ p ∈ G.ch s, p.1 ∈ rs ∧ p.2 ∈ rs) {n c : DNode} (hc : c ∈ st.net.normalized.ch n) : c.vars ⊆ n.vars := by
  cases n with
  | leaf v i => rw [normalized_ch_leaf] at hc; cases hc
  | sum s i =>
    rcases kids_cases h s i with ⟨⟨h1, h2⟩, e⟩ | e
    · rw [e, mem_flatMap_prods] at hc
      obtain ⟨a, b, j, hp, hj, rfl⟩ := hc
      exact Finset.Subset.refl _
    · rw [e] at hc; cases hc
  | prod s a b j =>
    rcases prod_cases h s a b j with ⟨⟨h1, h2, h3⟩, x, hx, y, hy, e⟩ | e
    · have hsub := (hG.split s _ h2).2.2.2.sub
      rw [e] at hc
      simp only [List.mem_cons, List.not_mem_nil, or_false] at hc
      rcases hc with rfl | rfl
      · rw [(rep_good h (hcl s h1 _ h2).1 hx).2]
        exact hsub.1
      · rw [(rep_good h (hcl s h1 _ h2).2 hy).2]
        exact hsub.2.1
    · rw [e] at hc; cases hc

theorem leaf_kind (st : DState F) {v : Int} {i : Nat} (hi : i < (st.gauss v).length) : ∃ g : F × F, st.net.normalized.kind (.leaf v i) = .leaf (newGaussianParams v g.1 g.2) := by
  refine ⟨(st.gauss v)[i], ?_⟩
  simp only [Net.normalized, DState.net, List.getElem?_eq_getElem hi]

theorem leaf_of_kind (st : DState F) {n : DNode} {l : Leaf F} (hk : st.net.normalized.kind n = .leaf l) : ∃ v i, n = .leaf v i ∧ leafVar l = v := by
  cases n with
  | leaf v i =>
    refine ⟨v, i, rfl, ?_⟩
    by_cases hi : i < (st.gauss v).length
    · obtain ⟨g, e⟩ := leaf_kind st hi
      rw [e] at hk
      cases hk
      rfl
    · simp only [Net.normalized, DState.net, List.getElem?_eq_none (Nat.le_of_not_lt hi)] at hk
      cases hk
  | sum s i => cases hk
  | prod s a b j => cases hk

/-- No sum or product lacks children. -/
theorem good_children (hG : RInv root G) (hexp : Expanded G (fun _ => False)) (hroot : 1 < root.card) (hm : 0 < m) (hR : ∀ s ∈ rs, s ∈ G.R) (h : BInv G root m rs st)
    (hcl : ∀ s ∈ rs, ∀ p ∈ G.ch s, p.1 ∈ rs ∧ p.2 ∈ rs) {n : DNode} (hn : n.good G rs st) (hl : ∀ v i, n ≠ .leaf v i) : st.net.normalized.ch n ≠ [] := by
  cases n with
  | leaf v i => exact absurd rfl (hl v i)
  | sum s i =>
    obtain ⟨h1, h2⟩ := hn
    rw [normalized_ch_sum, h.kids s h1 i h2]
    have hcard : 1 < s.card := by
      rcases h.rep s h1 with ⟨rfl, _⟩ | ⟨_, v, rfl, _, e⟩ | ⟨_, h3, _⟩
      · exact hroot
      · rw [e] at h2
        obtain ⟨j, _, hj⟩ := List.mem_map.1 h2
        cases hj
      · have := Finset.card_pos.2 (hG.sub s (hR s h1)).2
        omega
    have hch : G.ch s ≠ [] := fun h0 => hexp s (hR s h1) hcard h0
    obtain ⟨p, hp⟩ := List.exists_mem_of_ne_nil _ hch
    obtain ⟨c1, c2⟩ := hcl s h1 p hp
    have l1 := List.length_pos_iff.2 (rep_ne hm h c1)
    have l2 := List.length_pos_iff.2 (rep_ne hm h c2)
    exact List.ne_nil_of_mem (mem_flatMap_prods.2 ⟨p.1, p.2, 0, hp, Nat.mul_pos l1 l2, rfl⟩)
  | prod s a b j =>
    obtain ⟨h1, h2, h3⟩ := hn
    rw [normalized_ch_prod, h.pch s h1 (a, b) h2 j h3]
    have hjp : j < (pairsOf st.rep (a, b)).length := by rw [pairsOf_length]; exact h3
    rw [List.getElem?_eq_getElem hjp, Option.getD_some]
    obtain ⟨c, _, d, _, hcd⟩ := mem_pairsOf.1 (List.getElem_mem hjp)
    rw [hcd]
    simp

/-- The scope of a connected node is the region it belongs to. -/
theorem good_scope (hG : RInv root G) (hexp : Expanded G (fun _ => False)) (hroot : 1 < root.card) (hm : 0 < m) (hR : ∀ s ∈ rs, s ∈ G.R) (h : BInv G root m rs st)
    (hcl : ∀ s ∈ rs, ∀ p ∈ G.ch s, p.1 ∈ rs ∧ p.2 ∈ rs) {n : DNode} (hn : n.good G rs st) (v : Int) : InScope st.net.normalized n v ↔ v ∈ n.vars := by
  constructor
  · rintro ⟨k, l, hr, hk, hv⟩
    obtain ⟨v', i, rfl, hv'⟩ := leaf_of_kind st hk
    have hsub : ∀ k, Reach st.net.normalized.ch n k → k.vars ⊆ n.vars := by
      intro k hr
      induction hr with
      | refl => exact Finset.Subset.refl _
      | tail _ hc ih => exact (child_vars hG h hcl hc).trans ih
    apply hsub _ hr
    rw [← hv, hv']
    exact Finset.mem_singleton_self _
  · -- down to the leaf of the variable
    have key : ∀ (r : Nat) (n : DNode), n.rank < r → n.good G rs st → v ∈ n.vars → InScope st.net.normalized n v := by
      intro r
      induction r with
      | zero => intro n hr; omega
      | succ r ih =>
        intro n hr hn hv
        cases n with
        | leaf w i =>
          obtain ⟨g, e⟩ := leaf_kind st hn.2
          refine ⟨_, _, Relation.ReflTransGen.refl, e, ?_⟩
          exact (Finset.mem_singleton.1 hv).symm
        | sum s i =>
          have hne := good_children hG hexp hroot hm hR h hcl hn (by simp)
          obtain ⟨c, hc⟩ := List.exists_mem_of_ne_nil _ hne
          have hcv : c.vars = s := by
            have hc' := hc
            rw [normalized_ch_sum, h.kids s hn.1 i hn.2, mem_flatMap_prods] at hc'
            obtain ⟨a, b, j, _, _, rfl⟩ := hc'
            rfl
          obtain ⟨k, l, h1, h2⟩ := ih c (by have := child_rank hG h hcl hc; omega) (child_good h hcl hc) (by rw [hcv]; exact hv)
          exact ⟨k, l, Relation.ReflTransGen.head hc h1, h2⟩
        | prod s a b j =>
          have hne := good_children hG hexp hroot hm hR h hcl hn (by simp)
          rcases prod_cases h s a b j with ⟨_, x, hx, y, hy, e⟩ | e
          · obtain ⟨h1, h2, h3⟩ := hn
            have hsp := (hG.split s _ h2).2.2.2
            have hv' : v ∈ a ∪ b := by
              rw [hsp.1]
              exact hv
            have hxc : x ∈ st.net.normalized.ch (.prod s a b j) := by rw [e]; simp
            have hyc : y ∈ st.net.normalized.ch (.prod s a b j) := by rw [e]; simp
            rcases Finset.mem_union.1 hv' with hv' | hv'
            · obtain ⟨k, l, g1, g2⟩ := ih x (by have := child_rank hG h hcl hxc; omega) (child_good h hcl hxc) (by rw [(rep_good h (hcl s h1 _ h2).1 hx).2]; exact hv')
              exact ⟨k, l, Relation.ReflTransGen.head hxc g1, g2⟩
            · obtain ⟨k, l, g1, g2⟩ := ih y (by have := child_rank hG h hcl hyc; omega) (child_good h hcl hyc) (by rw [(rep_good h (hcl s h1 _ h2).2 hy).2]; exact hv')
              exact ⟨k, l, Relation.ReflTransGen.head hyc g1, g2⟩
          · exact absurd e hne
    exact key (n.rank + 1) n (Nat.lt_succ_self _) hn

end Net

/-- Everything about the network that does not depend on the arithmetic. -/
theorem dennis_net (E : DEnv F) (D : List VarSet) (n : Nat) (k : Int) (m g : Nat) (d : F) (hE : GoodEnv E D k) (hne : D ≠ []) (hn : 1 < n) (hc : CompleteVars n D)
    (hr : 1 < k → ∀ x ∈ D, ∀ c v, x c = some v → toInt (ofInt v : F) = v) (hm : 0 < m) (hg : 0 < g) (hq : QuantilesReturn F D g) :
    ∃ (S : DNode) (st : DState F), dennisStructure E D (firstVars n) k m g d = some (S, st.net.normalized) ∧ (∃ s i, S = .sum s i) ∧ Acyclic st.net.normalized.ch ∧ LeavesAreLeaves st.net.normalized S ∧
      IsComplete st.net.normalized S ∧ IsDecomposable st.net.normalized S ∧ (∀ v, InScope st.net.normalized S v ↔ 0 ≤ v ∧ v < n) ∧
      (∀ s i, ∀ c ∈ st.kids (.sum s i), DrawnWeight c.2) ∧ (∀ x, Reach st.net.normalized.ch S x → (st.net.normalized.type x = .leaf ↔ ∃ v i, x = .leaf v i)) ∧ Alternating st.net.normalized S := by
  obtain ⟨G, h1, hG, hexp⟩ := buildRegionGraph_ok E D n k d hE hne hn hc hr
  obtain ⟨rs, st, h2, hroot, hR, hcl, h⟩ := buildSPN_ok (F := F) hG E.pick hE.pick D m g hg hq
  have hcard : 1 < (firstVars n).card := by rw [card_firstVars]; exact hn
  have hS : DNode.good G rs st (.sum (firstVars n) 0) := by
    refine ⟨hroot, ?_⟩
    rcases h.rep _ hroot with ⟨_, e⟩ | ⟨e, _⟩ | ⟨e, _⟩
    · rw [e]; simp
    · exact absurd rfl e
    · exact absurd rfl e
  have hgood : ∀ x, Reach st.net.normalized.ch (.sum (firstVars n) 0) x → x.good G rs st := by
    intro x hx
    induction hx with
    | refl => exact hS
    | tail _ hc' _ => exact child_good h hcl hc'
  have hscope : ∀ x, Reach st.net.normalized.ch (.sum (firstVars n) 0) x → ∀ v, InScope st.net.normalized x v ↔ v ∈ x.vars :=
    fun x hx v => good_scope hG hexp hcard hm hR h hcl (hgood x hx) v
  have htype : ∀ x, Reach st.net.normalized.ch (.sum (firstVars n) 0) x → (st.net.normalized.type x = .leaf ↔ ∃ v i, x = .leaf v i) := by
    intro x hx
    cases x with
    | leaf v i =>
      obtain ⟨p, e⟩ := leaf_kind st (hgood _ hx).2
      unfold Net.type
      rw [e]
      simp
    | sum s i => simp [Net.type, Net.normalized, DState.net]
    | prod s a b j => simp [Net.type, Net.normalized, DState.net]
  refine ⟨.sum (firstVars n) 0, st, ?_, ⟨_, _, rfl⟩, ⟨DNode.rank, fun u c hc' => child_rank hG h hcl hc'⟩, ?_, ?_, ?_, ?_, h.wts, htype, ?_⟩
  · unfold dennisStructure
    rw [h1, Option.bind_some, h2]
    rfl
  · intro x hx hl
    refine good_children hG hexp hcard hm hR h hcl (hgood x hx) ?_
    intro v i hvi
    exact hl ((htype x hx).2 ⟨v, i, hvi⟩)
  · intro x hx cs w hk c hc' e he v hv
    have hcs : st.net.normalized.ch x = cs := by unfold Net.ch; rw [hk]
    have hvars : ∀ c ∈ cs, c.vars = x.vars := by
      intro c hc'
      rw [← hcs] at hc'
      cases x with
      | leaf v i => rw [normalized_ch_leaf] at hc'; cases hc'
      | sum s i =>
        rcases kids_cases h s i with ⟨_, e⟩ | e
        · rw [e, mem_flatMap_prods] at hc'
          obtain ⟨a, b, j, _, _, rfl⟩ := hc'
          rfl
        · rw [e] at hc'; cases hc'
      | prod s a b j => cases hk
    have hreach : ∀ c ∈ cs, Reach st.net.normalized.ch (.sum (firstVars n) 0) c := fun c hc' => hx.tail (by rw [hcs]; exact hc')
    rw [hscope c (hreach c hc'), hvars c hc'] at hv
    rw [hscope e (hreach e he), hvars e he]
    exact hv
  · intro x hx cs hk
    have hcs : st.net.normalized.ch x = cs := by unfold Net.ch; rw [hk]
    cases x with
    | leaf v i =>
      rw [normalized_ch_leaf] at hcs
      rw [← hcs]
      exact List.Pairwise.nil
    | sum s i => cases hk
    | prod s a b j =>
      have hg' := hgood _ hx
      rcases prod_cases h s a b j with ⟨⟨g1, g2, g3⟩, c, hc', e, he, heq⟩ | heq
      · rw [heq] at hcs
        subst hcs
        have hreach : ∀ z ∈ [c, e], Reach st.net.normalized.ch (.sum (firstVars n) 0) z := fun z hz => hx.tail (by rw [heq]; exact hz)
        simp only [List.pairwise_cons, List.mem_singleton, List.not_mem_nil, false_implies, implies_true, List.Pairwise.nil, and_true, forall_eq]
        rintro v ⟨v1, v2⟩
        rw [hscope c (hreach c (by simp)), (rep_good h (hcl s g1 _ g2).1 hc').2] at v1
        rw [hscope e (hreach e (by simp)), (rep_good h (hcl s g1 _ g2).2 he).2] at v2
        exact (Finset.disjoint_left.1 (hG.split s _ g2).2.2.2.2.1) v1 v2
      · rw [heq] at hcs
        rw [← hcs]
        exact List.Pairwise.nil
  · intro v
    rw [hscope _ Relation.ReflTransGen.refl v]
    exact mem_firstVars
  · intro x hx
    refine ⟨?_, ?_⟩
    · intro cs w hk c hc'
      have hcs : st.net.normalized.ch x = cs := by unfold Net.ch; rw [hk]
      rw [← hcs] at hc'
      cases x with
      | leaf v i => rw [normalized_ch_leaf] at hc'; cases hc'
      | sum s i =>
        rcases kids_cases h s i with ⟨_, e⟩ | e
        · rw [e, mem_flatMap_prods] at hc'
          obtain ⟨a, b, j, _, _, rfl⟩ := hc'
          simp [Net.type, Net.normalized, DState.net]
        · rw [e] at hc'; cases hc'
      | prod s a b j => cases hk
    · intro cs hk
      have hcs : st.net.normalized.ch x = cs := by unfold Net.ch; rw [hk]
      cases x with
      | leaf v i =>
        obtain ⟨p, e⟩ := leaf_kind st (hgood _ hx).2
        rw [e] at hk
        cases hk
      | sum s i => cases hk
      | prod s a b j =>
        rcases prod_cases h s a b j with ⟨_, c, _, e, _, heq⟩ | heq
        · rw [heq] at hcs
          rw [← hcs]
          simp
        · exact absurd heq (good_children hG hexp hcard hm hR h hcl (hgood _ hx) (by simp))

/-- The operations on scopes are those on sets, and a region `s` is similar to one of two others, neither it nor the second empty, if the share of common variables with one of them is above the threshold. -/
theorem C77_scopes (s r t : Scope) (d : ℝ) : (s.subsetOf t = true ↔ s ⊆ t) ∧ (s.equal t = true ↔ s = t) ∧ s.minus t = s \ t ∧ s.lenIntersect t = (s ∩ t).card ∧ s.lenUnion t = (s ∪ t).card ∧
    (s.Nonempty → t.Nonempty → (s.similarTo r t (XR.fin d) = true ↔ d < ((s ∩ r).card : ℝ) / (s ∪ r).card ∨ d < ((s ∩ t).card : ℝ) / (s ∪ t).card)) := by
  refine ⟨Scope.subsetOf_iff s t, Scope.equal_iff s t, Scope.minus_eq s t, Scope.lenIntersect_eq s t, Scope.lenUnion_eq s t, ?_⟩
  intro hs ht
  have hs' := Finset.card_pos.2 hs
  have ht' := Finset.card_pos.2 ht
  have hu : ∀ q : Scope, ((s ∪ q).card : ℝ) ≠ 0 := by
    intro q
    have : 0 < (s ∪ q).card := Finset.card_pos.2 (hs.mono Finset.subset_union_left)
    positivity
  unfold Scope.similarTo
  rw [if_neg (by omega)]
  dsimp only
  simp only [Scope.lenIntersect_eq, Scope.lenUnion_eq, XR.g_ofInt, Int.cast_natCast, XR.g_div, XR.div_fin (hu _), XR.g_lt, Bool.or_eq_true]
  simp [XR.lt]

/-- C77, whatever the arithmetic does, as long as the quantiles can be computed and, for k > 1, the values of the data are exact in floating point. -/
theorem C77_structure (E : DEnv F) (D : List VarSet) (n : Nat) (k : Int) (m g : Nat) (d : F) (hE : GoodEnv E D k) (hne : D ≠ []) (hn : 1 < n) (hc : CompleteVars n D)
    (hr : 1 < k → ∀ x ∈ D, ∀ c v, x c = some v → toInt (ofInt v : F) = v) (hm : 0 < m) (hg : 0 < g)
    (hq : g ≤ D.length → ∀ v, ∃ Q : List (List F), partitionQuantiles (extractInstance v D) (g : Int) = some Q) :
    ∃ S N, dennisStructure E D (firstVars n) k m g d = some (S, N) ∧ N.type S = .sum ∧ Acyclic N.ch ∧ LeavesAreLeaves N S ∧ IsComplete N S ∧ IsDecomposable N S ∧
      ∀ v, InScope N S v ↔ 0 ≤ v ∧ v < n := by
  obtain ⟨S, st, h1, ⟨s, i, rfl⟩, h2, h3, h4, h5, h6, _⟩ := dennis_net E D n k m g d hE hne hn hc hr hm hg hq
  exact ⟨_, _, h1, rfl, h2, h3, h4, h5, h6⟩

/-- C77 in exact arithmetic: the network is returned for all data, and the weights are distributions. -/
theorem C77_weights (E : DEnv XR) (D : List VarSet) (n : Nat) (k : Int) (m g : Nat) (d : XR) (hE : GoodEnv E D k) (hne : D ≠ []) (hn : 1 < n) (hc : CompleteVars n D) (hm : 0 < m) (hg : 0 < g) :
    ∃ S N, dennisStructure E D (firstVars n) k m g d = some (S, N) ∧ N.type S = .sum ∧ Acyclic N.ch ∧ LeavesAreLeaves N S ∧ IsComplete N S ∧ IsDecomposable N S ∧
      (∀ v, InScope N S v ↔ 0 ≤ v ∧ v < n) ∧ DistWeights N S := by
  obtain ⟨S, st, h1, ⟨s, i, rfl⟩, h2, h3, h4, h5, h6, h7, h8, _⟩ := dennis_net E D n k m g d hE hne hn hc (fun _ x _ c v _ => toInt_int v) hm hg
    (fun _ v => ⟨_, partitionQuantiles_eq _ g hg⟩)
  refine ⟨_, _, h1, rfl, h2, h3, h4, h5, h6, ?_⟩
  intro x hx cs w hk
  have hcne : cs ≠ [] := by
    have : st.net.normalized.type x ≠ .leaf := by unfold Net.type; rw [hk]; simp
    have := h3 x hx this
    unfold Net.ch at this
    rw [hk] at this
    exact this
  cases x with
  | leaf v j =>
    have := (h8 _ hx).2 ⟨v, j, rfl⟩
    unfold Net.type at this
    rw [hk] at this
    cases this
  | prod s a b j => cases hk
  | sum s j =>
    have hk' : cs = (st.kids (.sum s j)).map (·.1) ∧ w = spnNorm ((st.kids (.sum s j)).map (·.2)) := by
      cases hk
      exact ⟨rfl, rfl⟩
    obtain ⟨rfl, rfl⟩ := hk'
    have hw : ∀ c ∈ st.kids (.sum s j), ∃ x : ℝ, 0 < x ∧ c.2 = XR.fin x := by
      intro c hc
      obtain ⟨y, _, hy⟩ := h7 s j c hc
      refine ⟨(y : ℝ) + 1, by positivity, ?_⟩
      rw [hy, XR.g_ofInt]
      push_cast
      rfl
    have hlist : ∀ l : List (DNode × XR), (∀ c ∈ l, ∃ x : ℝ, 0 < x ∧ c.2 = XR.fin x) → ∃ r : List ℝ, l.map (·.2) = r.map XR.fin ∧ ∀ x ∈ r, 0 < x := by
      intro l
      induction l with
      | nil => intro _; exact ⟨[], rfl, by simp⟩
      | cons c l ih =>
        intro hl
        obtain ⟨x, hx0, hx⟩ := hl c List.mem_cons_self
        obtain ⟨r, hr, hr0⟩ := ih fun c hc => hl c (List.mem_cons_of_mem _ hc)
        refine ⟨x :: r, by simp [hx, hr], ?_⟩
        intro y hy
        rcases List.mem_cons.1 hy with rfl | hy
        · exact hx0
        · exact hr0 y hy
    obtain ⟨r, hr, hr0⟩ := hlist _ hw
    have hrne : r ≠ [] := by
      rintro rfl
      apply hcne
      have := congrArg List.length hr
      simp only [List.length_map, List.map_nil, List.length_nil] at this
      rw [List.length_eq_zero_iff.1 this]
      rfl
    have hsum : 0 < r.sum := List.sum_pos _ hr0 hrne
    obtain ⟨e1, e2, e3⟩ := C25_spn_partial r (fun x hx => (hr0 x hx).le) hsum
    refine ⟨r.map (fun x => x / r.sum), by rw [hr, e1], ?_, e2, e3⟩
    have := congrArg List.length hr
    simpa using this.symm

/-- The clustering library must use both labels: if it puts all variables into the first of two clusters, `Structure` returns a network with a cycle, for every complete
non-empty data set, one cluster of instances, and everything else as it likes. -/
theorem C77_empty_cluster (E : DEnv F) (D : List VarSet) (n m g : Nat) (d : F) (hkm : ∀ t M, E.km t M = some (M.map fun _ => 0)) (horder : ∀ t C, (E.order t C).Perm C)
    (hords : ∀ t, ∀ x ∈ D, Enumerates x (E.ords 0 t x)) (hpick : ∀ t, E.pick t 10 < 10) (hne : D ≠ []) (hn : 1 < n) (hc : CompleteVars n D) (hm : 0 < m) :
    ∃ S N c, dennisStructure E D (firstVars n) 1 m g d = some (S, N) ∧ c ∈ N.ch S ∧ S ∈ N.ch c := by
  set root := firstVars n with hroot
  have hcard : root.card = n := card_firstVars n
  have hre : root ≠ ∅ := by
    intro h
    rw [h, Finset.card_empty] at hcard
    omega
  -- the region graph
  obtain ⟨rows, e1, e2, e3⟩ := dataToCluster_spec (ord := E.ords 0) (D := D) hne hords hc
  have hps : partitionScope E 0 root (transposeRows rows) = some (root, ∅) := by
    unfold partitionScope
    dsimp only
    rw [hkm, Option.bind_some]
    unfold clusterToMatrix
    dsimp only
    have hperm := horder 0 (transposeRows rows)
    generalize E.order 0 (transposeRows rows) = C' at hperm ⊢
    have hkeys : ∀ v, v ∈ C'.map (·.1) ↔ v ∈ root := by
      intro v
      rw [(hperm.map _).mem_iff, transposeRows_keys e2 e3, hroot, mem_firstVars]
      simp only [List.mem_map, List.mem_range]
      constructor
      · rintro ⟨a, h1, rfl⟩
        omega
      · rintro ⟨h1, h2⟩
        exact ⟨v.toNat, by omega, by omega⟩
    have hfil : (C'.filter fun x => x.1 ∈ root) = C' := by
      rw [List.filter_eq_self]
      intro x hx
      simpa using (hkeys x.1).1 (List.mem_map.2 ⟨x, hx, rfl⟩)
    have hlen : C'.length = n := by
      rw [hperm.length_eq]
      have := congrArg List.length (transposeRows_keys e2 e3)
      simpa using this
    rw [hfil, hlen, hcard, Nat.sub_self, List.replicate_zero, List.append_nil, List.map_map]
    obtain ⟨s, hs, h1, h2⟩ := placeVar_fold (fun i => (C'[i]?.map (·.1)).getD 0) (C'.map ((fun _ => (0 : Int)) ∘ fun (x : Int × List Int) => x.2.map (ofInt : Int → F))).zipIdx (∅, ∅) (by
      intro x hx
      have := List.fst_mem_of_mem_zipIdx hx
      obtain ⟨y, _, hy⟩ := List.mem_map.1 this
      exact Or.inl hy.symm)
    rw [hs]
    congr 1
    refine Prod.ext ?_ ?_
    · ext v
      rw [h1]
      simp only [Finset.notMem_empty, false_or]
      constructor
      · rintro ⟨x, hx, _, rfl⟩
        have hx' := List.mem_zipIdx_iff_getElem?.1 hx
        rw [List.getElem?_map] at hx'
        obtain ⟨y, hy, _⟩ := Option.map_eq_some_iff.1 hx'
        rw [hy, Option.map_some, Option.getD_some]
        exact (hkeys _).1 (List.mem_map.2 ⟨y, List.mem_of_getElem? hy, rfl⟩)
      · intro hv
        obtain ⟨y, hy, rfl⟩ := List.mem_map.1 ((hkeys v).2 hv)
        obtain ⟨i, hi, rfl⟩ := List.mem_iff_getElem.1 hy
        refine ⟨(0, i), List.mem_zipIdx_iff_getElem?.2 ?_, rfl, ?_⟩
        · rw [List.getElem?_map, List.getElem?_eq_getElem hi]
          rfl
        · rw [List.getElem?_eq_getElem hi]
          rfl
    · ext v
      rw [h2]
      simp only [Finset.notMem_empty, false_or, iff_false]
      rintro ⟨x, hx, h0, _⟩
      have := List.fst_mem_of_mem_zipIdx hx
      obtain ⟨y, _, hy⟩ := List.mem_map.1 this
      rw [← hy] at h0
      simp at h0
  have hG : ∃ G, buildRegionGraph E D root 1 d = some G ∧ G.ch root = [(root, ∅)] ∧ G.ch ∅ = [] := by
    refine ⟨((((newRGraph root).validate root).validate ∅).link root root ∅), ?_, ?_, ?_⟩
    · unfold buildRegionGraph
      rw [if_neg (by omega), if_pos rfl, e1, Option.map_some, Option.bind_some, List.foldlM_cons]
      unfold expandRegionGraph
      dsimp only
      rw [hps, Option.bind_some]
      have hch : chooseScopes (newRGraph root).R root d (root, ∅) = (root, ∅) := by
        unfold chooseScopes
        have : (List.find? (fun r => r.subsetOf root && !r.equal root && r.similarTo root ∅ d) (newRGraph root).R) = none := by
          simp [newRGraph, (Scope.equal_iff root root).2 rfl]
        dsimp only
        rw [this]
      rw [hch]
      have hcon : scopesContain (newRGraph root).R root = true := (any_equal _ _).2 (by simp [newRGraph])
      simp only [hcon, Bool.not_true, Bool.false_and, Bool.false_eq_true, if_false, Option.bind_some, Finset.card_empty, show ¬ (0 > 1) by omega, decide_false, Bool.and_false]
      rfl
    all_goals
      have hP : ((((newRGraph root).validate root).validate ∅)).P = [] := by
        rw [validate_eq, validate_eq]
        split <;> split <;> rfl
      have hch : ((((newRGraph root).validate root).validate ∅)).ch = fun _ => [] := by
        rw [validate_ch, validate_ch]
        rfl
      unfold RGraph.link RGraph.existsPartition
      rw [hP, hch]
      simp only [List.not_mem_nil, decide_false, Bool.false_eq_true, if_false, List.nil_append]
    · rw [Function.update_self]
    · rw [Function.update_of_ne (Ne.symm hre)]
  obtain ⟨G, hG1, hG2, hG3⟩ := hG
  have hpost : G.postorder root = [∅, root] := by
    obtain ⟨a, rfl⟩ : ∃ a, n = a + 2 := ⟨n - 2, by omega⟩
    unfold RGraph.postorder
    rw [hcard, show 2 * (a + 2) + 1 = (2 * a + 2) + 1 + 1 + 1 by omega]
    have c1 : G.children (.region root) = [.part root root ∅] := by simp [RGraph.children, hG2]
    have c2 : G.children (.part root root ∅) = [.region root, .region ∅] := rfl
    have c3 : G.children (.region ∅) = [] := by simp [RGraph.children, hG3]
    simp only [postOrderRec, c1, c2, c3, List.foldl_cons, List.foldl_nil, Finset.mem_singleton, Finset.mem_insert, reduceCtorEq, or_false, false_or, if_false, if_true, or_true,
      RNode.region.injEq, Ne.symm hre, Coll.give, Bool.false_eq_true, List.nil_append, List.cons_append, List.filterMap_cons, List.filterMap_nil]
  -- the nodes of the two regions
  let s0 : DState F := ⟨fun _ => [], fun _ => [], fun _ => [], fun _ => [], 0⟩
  let s1 : DState F := { s0 with rep := Function.update s0.rep ∅ ((List.range m).map (DNode.sum ∅)) }
  let s2 : DState F := { s1 with rep := Function.update s1.rep root [DNode.sum root 0] }
  have b1 : buildRegion E.pick D m g root G s0 ∅ = some s1 := by
    unfold buildRegion
    rw [if_neg (Ne.symm hre), hG3]
    unfold translateRegion
    simp only [Finset.sort_empty]
    rfl
  have hr1 : s2.rep root = [.sum root 0] := Function.update_self _ _ _
  have hr2 : s2.rep ∅ = (List.range m).map (DNode.sum ∅) := by
    show Function.update s1.rep root [DNode.sum root 0] ∅ = _
    rw [Function.update_of_ne (Ne.symm hre)]
    exact Function.update_self (∅ : Scope) _ s0.rep
  obtain ⟨s3, b2, b3, _, _, b4, b5, _⟩ := buildPartition_ok (F := F) E.pick hpick root [.sum root 0] (by simp) (by intro x hx; exact ⟨root, 0, List.mem_singleton.1 hx⟩) s2 (root, ∅) (fun _ => rfl)
  have hb : buildSPN E.pick D m g root G = some (.sum root 0, s3) := by
    unfold buildSPN
    rw [hpost, List.foldlM_cons]
    have b1' : buildRegion E.pick D m g root G ⟨fun _ => [], fun _ => [], fun _ => [], fun _ => [], 0⟩ ∅ = some s1 := b1
    rw [b1']
    have b6 : buildRegion E.pick D m g root G s1 root = some s3 := by
      unfold buildRegion
      rw [if_pos rfl, hG2, Option.bind_some, List.foldlM_cons]
      dsimp only
      have b2' : buildPartition E.pick root [.sum root 0] { s1 with rep := Function.update s1.rep root [DNode.sum root 0] } (root, ∅) = some s3 := b2
      rw [b2']
      rfl
    show ((some s1).bind fun s => List.foldlM (buildRegion E.pick D m g root G) s [root]).bind _ = _
    rw [Option.bind_some, List.foldlM_cons, b6]
    show (some s3).bind _ = _
    rw [Option.bind_some, b3, hr1]
    rfl
  have hprod : DNode.prod root root ∅ 0 ∈ prodsOf s2.rep root (root, ∅) := by
    unfold prodsOf
    rw [hr1, hr2]
    refine List.mem_map.2 ⟨0, List.mem_range.2 ?_, rfl⟩
    simpa using hm
  refine ⟨.sum root 0, s3.net.normalized, .prod root root ∅ 0, ?_, ?_, ?_⟩
  · unfold dennisStructure
    rw [hG1, Option.bind_some, hb]
    rfl
  · rw [normalized_ch_sum]
    obtain ⟨l, c1, c2, _⟩ := b4 _ (List.mem_singleton.2 rfl)
    rw [c1]
    show _ ∈ ([] ++ l).map (fun x : DNode × F => x.1)
    rw [List.nil_append, c2]
    exact hprod
  · rw [normalized_ch_prod, b5 0 (by rw [hr1, hr2]; simpa using hm)]
    have hp : 0 < (pairsOf s2.rep (root, ∅)).length := by
      rw [pairsOf_length, hr1, hr2]
      simpa using hm
    rw [List.getElem?_eq_getElem hp, Option.getD_some]
    obtain ⟨c, hc', d', _, hcd⟩ := mem_pairsOf.1 (List.getElem_mem hp)
    rw [hcd]
    dsimp only at hc'
    rw [hr1] at hc'
    rw [List.mem_singleton.1 hc']
    simp

/-! ### The hypotheses hold for three instances of two variables -/

/-- The first row is the first cluster, the others are the second; orders are as they come. -/
noncomputable def exampleEnv : DEnv XR where
  km := fun _ M => some (0 :: List.replicate (M.length - 1) 1)
  order := fun _ C => C
  assign := fun k M => some ((List.range M.length).map fun (i : Nat) => (i : Int) % k)
  ord := fun _ _ => [1, 0]
  ords := fun _ _ _ => [0, 1]
  pick := fun t _ => t % 10

/-- Three instances of the variables 0 and 1. -/
def threeTwo : List VarSet := (List.range 3).map fun (i : Nat) => (VarSet.empty.set 0 i).set 1 (i * i)

theorem threeTwo_complete : CompleteVars 2 threeTwo := by
  intro x hx k
  simp only [threeTwo, List.mem_map] at hx
  obtain ⟨i, _, rfl⟩ := hx
  simp only [VarSet.set, VarSet.empty]
  split
  · subst_vars; simp
  · split
    · subst_vars; simp
    · simp; omega

theorem exampleEnv_fits {D : List VarSet} (hD : CompleteVars 2 D) (hl : D.length = 3) (k : Int) (hk : k ≤ 3) : GoodEnv exampleEnv D k := by
  have en : ∀ x ∈ D, ∀ ks : List Int, ks.Nodup → (∀ k, k ∈ ks ↔ k = 0 ∨ k = 1) → Enumerates x ks := by
    intro x hx ks hnd hks
    refine ⟨hnd, fun k => ?_⟩
    rw [hD x hx, hks]
    omega
  refine ⟨?_, fun _ _ => List.Perm.refl _, ?_, fun t x hx => en x hx _ (by simp [exampleEnv]) (by simp [exampleEnv]; omega),
    fun i t x hx => en x hx _ (by simp [exampleEnv]) (by simp [exampleEnv]), fun t => Nat.mod_lt _ (by omega)⟩
  · intro t M hM
    refine ⟨_, rfl, ?_, ?_, ?_⟩
    · simp; omega
    · intro g hg
      rcases List.mem_cons.1 hg with rfl | hg
      · omega
      · rw [List.eq_of_mem_replicate hg]; omega
    · intro a ha
      have : a = 0 ∨ a = 1 := by omega
      rcases this with rfl | rfl
      · simp
      · simp; omega
  · intro h1 M hM
    have hM3 : M.length = 3 := hM.trans hl
    refine ⟨_, rfl, ?_, ?_, ?_⟩
    · simp [hM]
    · intro g hg
      obtain ⟨i, _, rfl⟩ := List.mem_map.1 hg
      constructor
      · exact Int.emod_nonneg _ (by omega)
      · have := Int.emod_lt_of_pos (i : Int) (show 0 < k by omega)
        omega
    · intro a ha
      refine List.mem_map.2 ⟨a, List.mem_range.2 (by omega), Int.emod_eq_of_lt (by omega) (by omega)⟩

theorem exampleEnv_good (k : Int) (hk : k ≤ 3) : GoodEnv exampleEnv threeTwo k := exampleEnv_fits threeTwo_complete rfl k hk

example : threeTwo ≠ [] ∧ CompleteVars 2 threeTwo ∧ GoodEnv exampleEnv threeTwo 2 ∧ GoodEnv exampleEnv threeTwo 0 :=
  ⟨by simp [threeTwo], threeTwo_complete, exampleEnv_good 2 (by omega), exampleEnv_good 0 (by omega)⟩

end Gospn
