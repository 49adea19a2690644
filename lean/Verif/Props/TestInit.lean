/-
C142: the sample network. C143: the graph search of package test.
-/
import Verif.Model.TestInit
import Verif.Props.Semantics
import Verif.Props.Search

set_option linter.unusedSectionVars false
set_option linter.unusedSimpArgs false

namespace Gospn
open Spec

theorem sample_acyclic : Acyclic sampleSPN.ch := by
  refine ⟨![3, 2, 2, 0, 0, 1, 1, 1, 1, 0, 0, 0, 0], fun u v h => ?_⟩
  have h : v ∈ sampleSPN.ch u := h
  fin_cases u <;> simp [sampleSPN, Net.ch] at h <;> (try rcases h with rfl | rfl | rfl) <;> (try rcases h with rfl | rfl) <;> decide

theorem sample_scopes (v : Int) : (InScope sampleSPN 3 v ↔ v = 0) ∧ (InScope sampleSPN 4 v ↔ v = 1) ∧ (InScope sampleSPN 5 v ↔ v = 2) ∧ (InScope sampleSPN 6 v ↔ v = 2) ∧
    (InScope sampleSPN 7 v ↔ v = 3) ∧ (InScope sampleSPN 8 v ↔ v = 3) ∧ (InScope sampleSPN 9 v ↔ v = 2) ∧ (InScope sampleSPN 10 v ↔ v = 2) ∧ (InScope sampleSPN 11 v ↔ v = 3) ∧ (InScope sampleSPN 12 v ↔ v = 3) := by
  have l3 : InScope sampleSPN 3 v ↔ _ := InScope.of_leaf (N := sampleSPN) (n := 3) rfl
  have l4 : InScope sampleSPN 4 v ↔ _ := InScope.of_leaf (N := sampleSPN) (n := 4) rfl
  have l9 : InScope sampleSPN 9 v ↔ _ := InScope.of_leaf (N := sampleSPN) (n := 9) rfl
  have l10 : InScope sampleSPN 10 v ↔ _ := InScope.of_leaf (N := sampleSPN) (n := 10) rfl
  have l11 : InScope sampleSPN 11 v ↔ _ := InScope.of_leaf (N := sampleSPN) (n := 11) rfl
  have l12 : InScope sampleSPN 12 v ↔ _ := InScope.of_leaf (N := sampleSPN) (n := 12) rfl
  have h5 : sampleSPN.ch 5 = [9, 10] := rfl
  have h6 : sampleSPN.ch 6 = [9, 10] := rfl
  have h7 : sampleSPN.ch 7 = [11, 12] := rfl
  have h8 : sampleSPN.ch 8 = [11, 12] := rfl
  rw [InScope.of_node (n := 5) (by intro l h; cases h), InScope.of_node (n := 6) (by intro l h; cases h), InScope.of_node (n := 7) (by intro l h; cases h), InScope.of_node (n := 8) (by intro l h; cases h)]
  simp [h5, h6, h7, h8, l3, l4, l9, l10, l11, l12, leafVar, eq_comm]

theorem sample_scope1 (v : Int) : InScope sampleSPN 1 v ↔ v = 0 ∨ v = 2 ∨ v = 3 := by
  obtain ⟨h3, h4, h5, h6, h7, h8, _⟩ := sample_scopes v
  rw [InScope.of_node (by intro l h; cases h)]
  have h : sampleSPN.ch 1 = [3, 5, 7] := rfl
  simp [h, h3, h5, h7]

theorem sample_scope2 (v : Int) : InScope sampleSPN 2 v ↔ v = 2 ∨ v = 3 ∨ v = 1 := by
  obtain ⟨h3, h4, h5, h6, h7, h8, _⟩ := sample_scopes v
  rw [InScope.of_node (by intro l h; cases h)]
  have h : sampleSPN.ch 2 = [6, 8, 4] := rfl
  simp [h, h4, h6, h8]

theorem sample_weights : DistWeights sampleSPN 0 := by
  intro n _ cs w hk
  fin_cases n <;> simp [sampleSPN] at hk <;> obtain ⟨rfl, rfl⟩ := hk
  · exact ⟨[3 / 10, 7 / 10], by simp, by simp, by norm_num, by norm_num⟩
  · exact ⟨[6 / 10, 4 / 10], by simp, by simp, by norm_num, by norm_num⟩
  · exact ⟨[2 / 10, 8 / 10], by simp, by simp, by norm_num, by norm_num⟩
  · exact ⟨[9 / 10, 1 / 10], by simp, by simp, by norm_num, by norm_num⟩
  · exact ⟨[5 / 10, 5 / 10], by simp, by simp, by norm_num, by norm_num⟩

theorem sample_discrete : DiscreteLeaves sampleSPN 0 (fun _ => {0, 1}) := by
  intro n l _ hk
  fin_cases n <;> simp [sampleSPN] at hk <;> subst hk
  · exact ⟨[9 / 10, 1 / 10], by simp, by norm_num, by norm_num, fun x => by simp; omega⟩
  · exact ⟨[6 / 10, 4 / 10], by simp, by norm_num, by norm_num, fun x => by simp; omega⟩
  · exact ⟨[8 / 10, 2 / 10], by simp, by norm_num, by norm_num, fun x => by simp; omega⟩
  · exact ⟨[3 / 10, 7 / 10], by simp, by norm_num, by norm_num, fun x => by simp; omega⟩
  · exact ⟨[4 / 10, 6 / 10], by simp, by norm_num, by norm_num, fun x => by simp; omega⟩
  · exact ⟨[9 / 10, 1 / 10], by simp, by norm_num, by norm_num, fun x => by simp; omega⟩

/-- C142, what holds: the sample network has no cycle, products of children with disjoint scopes, weights that sum to one and proper distributions as leaves.
Missing: that it is complete, which is false (`C142_complete_refuted`). -/
theorem C142_parts_partial : Acyclic sampleSPN.ch ∧ IsDecomposable sampleSPN 0 ∧ DistWeights sampleSPN 0 ∧ DiscreteLeaves sampleSPN 0 (fun _ => {0, 1}) := by
  refine ⟨sample_acyclic, ?_, sample_weights, sample_discrete⟩
  intro n _ cs hk
  fin_cases n <;> simp [sampleSPN] at hk <;> subst hk <;>
    (have h := fun v => sample_scopes v
     simp [h])

/-- C142 is refuted: the children of the root have different scopes, {0, 2, 3} and {1, 2, 3}. -/
theorem C142_complete_refuted : ¬ IsComplete sampleSPN 0 := by
  intro h
  have := h 0 Relation.ReflTransGen.refl [1, 2] _ rfl 1 (by simp) 2 (by simp) 0 ((sample_scope1 0).2 (by simp))
  rw [sample_scope2] at this
  simp at this

/-- The instance in which the variables 0 to 3 have the values `a`, `b`, `c`, `d`. -/
def Spec.fourValues (a b c d : Fin 2) : VarSet := fun v => if v = 0 then some (a.val : Int) else if v = 1 then some (b.val : Int) else if v = 2 then some (c.val : Int) else if v = 3 then some (d.val : Int) else none

theorem fourValues_domain (a b c d : Fin 2) : InDomain sampleSPN 0 (fun _ => (({0, 1} : Finset Int) : Set Int)) (fourValues a b c d) := by
  intro v _ x hx
  unfold fourValues at hx
  have h2 : ∀ e : Fin 2, ((e.val : Int) = 0 ∨ (e.val : Int) = 1) := fun e => by omega
  simp only [Finset.coe_insert, Finset.coe_singleton, Set.mem_insert_iff, Set.mem_singleton_iff]
  split at hx
  · cases hx; exact h2 a
  · split at hx
    · cases hx; exact h2 b
    · split at hx
      · cases hx; exact h2 c
      · split at hx
        · cases hx; exact h2 d
        · cases hx

theorem sample_nonneg : NonnegWeights sampleSPN 0 := by
  intro n hn cs w hk
  obtain ⟨r, h1, h2, h3, h4⟩ := sample_weights n hn cs w hk
  refine ⟨?_, r, h1, h2, h3⟩
  rintro rfl
  have : r = [] := List.length_eq_zero_iff.1 (by simpa using h2)
  subst this
  simp at h4

theorem leaf_prob {N : Net (Fin 13) XR} {n : Fin 13} {sc : List Int} {v : Int} {p q : ℝ} {mi : Nat} {mv : XR} (hk : N.kind n = .leaf (.multinomial sc v [.fin p, .fin q] mi mv)) (hp : 0 ≤ p) (hq : 0 ≤ q) (I : VarSet) (e : Fin 2)
    (hI : I v = some (e.val : Int)) : N.prob I n = (![p, q] : Fin 2 → ℝ) e := by
  have hv : N.value I n = some (XR.log (.fin ((![p, q] : Fin 2 → ℝ) e))) := by
    unfold Net.value dagRec
    rw [show Fintype.card (Fin 13) = 12 + 1 by simp, fuelRec, Net.valueStep, hk]
    fin_cases e <;> simp [Leaf.value, hI, goIdx, GoFloat.log]
  have h0 : 0 ≤ (![p, q] : Fin 2 → ℝ) e := by fin_cases e <;> simpa
  unfold Net.prob
  rw [hv]
  simpa using (log_nonneg_spec h0).2

theorem sample_prob (a b c d : Fin 2) : ∃ x, sampleSPN.value (fourValues a b c d) 0 = some x ∧ IsLogProb x ∧
    unlog x = 3 / 10 * ((![9 / 10, 1 / 10] : Fin 2 → ℝ) a * ((6 / 10 * (![8 / 10, 2 / 10] : Fin 2 → ℝ) c + 4 / 10 * (![3 / 10, 7 / 10] : Fin 2 → ℝ) c) * (9 / 10 * (![4 / 10, 6 / 10] : Fin 2 → ℝ) d + 1 / 10 * (![9 / 10, 1 / 10] : Fin 2 → ℝ) d))) +
      7 / 10 * ((2 / 10 * (![8 / 10, 2 / 10] : Fin 2 → ℝ) c + 8 / 10 * (![3 / 10, 7 / 10] : Fin 2 → ℝ) c) * ((5 / 10 * (![4 / 10, 6 / 10] : Fin 2 → ℝ) d + 5 / 10 * (![9 / 10, 1 / 10] : Fin 2 → ℝ) d) * (![6 / 10, 4 / 10] : Fin 2 → ℝ) b)) := by
  have hl := discrete_eval sample_discrete (fourValues_domain a b c d)
  have step : ∀ {x y : Fin 13}, y ∈ sampleSPN.ch x → Reach sampleSPN.ch 0 x → Reach sampleSPN.ch 0 y := fun h1 h2 => Relation.ReflTransGen.tail h2 h1
  have r0 : Reach sampleSPN.ch 0 0 := Relation.ReflTransGen.refl
  have r1 : Reach sampleSPN.ch 0 1 := step (x := 0) (show (1 : Fin 13) ∈ [1, 2] by simp) r0
  have r2 : Reach sampleSPN.ch 0 2 := step (x := 0) (show (2 : Fin 13) ∈ [1, 2] by simp) r0
  have r5 : Reach sampleSPN.ch 0 5 := step (x := 1) (show (5 : Fin 13) ∈ [3, 5, 7] by simp) r1
  have r7 : Reach sampleSPN.ch 0 7 := step (x := 1) (show (7 : Fin 13) ∈ [3, 5, 7] by simp) r1
  have r6 : Reach sampleSPN.ch 0 6 := step (x := 2) (show (6 : Fin 13) ∈ [6, 8, 4] by simp) r2
  have r8 : Reach sampleSPN.ch 0 8 := step (x := 2) (show (8 : Fin 13) ∈ [6, 8, 4] by simp) r2
  have spec := fun {n} (h : Reach sampleSPN.ch 0 n) => Net.prob_spec sample_acyclic sample_nonneg hl h
  have p3 : sampleSPN.prob (fourValues a b c d) 3 = _ := leaf_prob (N := sampleSPN) (n := 3) rfl (by norm_num) (by norm_num) _ a (by simp [fourValues])
  have p4 : sampleSPN.prob (fourValues a b c d) 4 = _ := leaf_prob (N := sampleSPN) (n := 4) rfl (by norm_num) (by norm_num) _ b (by simp [fourValues])
  have p9 : sampleSPN.prob (fourValues a b c d) 9 = _ := leaf_prob (N := sampleSPN) (n := 9) rfl (by norm_num) (by norm_num) _ c (by simp [fourValues])
  have p10 : sampleSPN.prob (fourValues a b c d) 10 = _ := leaf_prob (N := sampleSPN) (n := 10) rfl (by norm_num) (by norm_num) _ c (by simp [fourValues])
  have p11 : sampleSPN.prob (fourValues a b c d) 11 = _ := leaf_prob (N := sampleSPN) (n := 11) rfl (by norm_num) (by norm_num) _ d (by simp [fourValues])
  have p12 : sampleSPN.prob (fourValues a b c d) 12 = _ := leaf_prob (N := sampleSPN) (n := 12) rfl (by norm_num) (by norm_num) _ d (by simp [fourValues])
  have p5 := (spec r5).2.2 [9, 10] [6 / 10, 4 / 10] rfl
  have p6 := (spec r6).2.2 [9, 10] [2 / 10, 8 / 10] rfl
  have p7 := (spec r7).2.2 [11, 12] [9 / 10, 1 / 10] rfl
  have p8 := (spec r8).2.2 [11, 12] [5 / 10, 5 / 10] rfl
  have p1 := (spec r1).2.1 [3, 5, 7] rfl
  have p2 := (spec r2).2.1 [6, 8, 4] rfl
  have p0 := (spec r0).2.2 [1, 2] [3 / 10, 7 / 10] rfl
  obtain ⟨x, h1, h2, h3⟩ := (spec r0).1
  refine ⟨x, h1, h2, ?_⟩
  rw [h3, p0]
  simp only [List.map_cons, List.map_nil, p1, p2, List.prod_cons, List.prod_nil, mul_one, p5, p6, p7, p8, p3, p4, p9, p10, p11, p12]
  simp only [wsum_cons, wsum_nil, add_zero]

/-- C142 is refuted, as a user sees it: the probabilities that the sample network gives to the sixteen complete instances sum to 2. -/
theorem C142_sum_refuted : ∃ P : Fin 2 → Fin 2 → Fin 2 → Fin 2 → XR, (∀ a b c d, sampleSPN.value (fourValues a b c d) 0 = some (P a b c d) ∧ IsLogProb (P a b c d)) ∧ ∑ a, ∑ b, ∑ c, ∑ d, unlog (P a b c d) = 2 := by
  choose P h1 h2 h3 using sample_prob
  refine ⟨P, fun a b c d => ⟨h1 a b c d, h2 a b c d⟩, ?_⟩
  simp only [Fin.sum_univ_two, h3]
  norm_num

variable {ι : Type} [DecidableEq ι] [Fintype ι]

theorem doBFS_eq {σ : Type} (ch : ι → List ι) (S : ι) (f : σ → ι → σ × Bool) (isStack : Option Bool) (x : σ) :
    doBFS ch S f isStack x = searchFunc ch (isStack.getD false) S (fun x u => ((f x u).1, if (f x u).2 then 0 else 1)) x := by
  unfold doBFS searchFunc
  congr 1
  funext x u
  cases h : (f x u).2 <;> simp [h]

/-- C143. For every callback and collection (none, a queue or a stack) the search returns, having called the callback on a list of distinct reachable nodes; only the last call can have
returned false, and if none has, every reachable node has been called on. -/
theorem C143_search {σ : Type} (ch : ι → List ι) (S : ι) (f : σ → ι → σ × Bool) (isStack : Option Bool) (x : σ) :
    ∃ calls : List ι, calls.Nodup ∧ doBFS ch S f isStack x = some (callLog f x calls).2 ∧ (∀ e ∈ (callLog f x calls).1.dropLast, e.2 = true) ∧ (∀ v ∈ calls, Reach ch S v) ∧
      ((∀ e ∈ (callLog f x calls).1, e.2 = true) → ∀ v, Reach ch S v → v ∈ calls) := by
  let g : σ → ι → σ × Int := fun x u => ((f x u).1, if (f x u).2 then 0 else 1)
  obtain ⟨calls, h1, h2, h3, h4, h5⟩ := C10_search ch (isStack.getD false) S g x
  have hlog : ∀ (l : List ι) (x : σ), callLog g x l = ((callLog f x l).1.map (fun e => (e.1, if e.2 then (0 : Int) else 1)), (callLog f x l).2) := by
    intro l
    induction l with
    | nil => intro x; simp [callLog]
    | cons a l ih => intro x; simp [callLog, ih, g]
  rw [hlog] at h2 h3 h4 h5
  have hreach : ∀ v, ReachThrough ch ((callLog f x calls).1.map (fun e => (e.1, if e.2 then (0 : Int) else 1))) S v → Reach ch S v := by
    intro v hv
    induction hv with
    | refl => exact Relation.ReflTransGen.refl
    | tail _ hc ih => exact ih.tail hc.2
  refine ⟨calls, h1, by rw [doBFS_eq]; exact h2, fun e he => ?_, fun v hv => hreach v (h4 v hv), fun hall v hv => ?_⟩
  · have := h3 (e.1, if e.2 then (0 : Int) else 1) (by rw [← List.map_dropLast]; exact List.mem_map.2 ⟨e, he, rfl⟩)
    cases h : e.2 with
    | true => rfl
    | false => simp [h] at this
  · have hle : ∀ e ∈ (callLog f x calls).1.map (fun e => (e.1, if e.2 then (0 : Int) else 1)), e.2 ≤ 0 := by
      intro e he
      obtain ⟨e', he', rfl⟩ := List.mem_map.1 he
      simp [hall e' he']
    have hcalled : ∀ (l : List ι) (x : σ) (u : ι), u ∈ l → ∃ r, (u, r) ∈ (callLog f x l).1 := by
      intro l
      induction l with
      | nil => intro x u hu; cases hu
      | cons a l ih =>
        intro x u hu
        rcases List.mem_cons.1 hu with rfl | hu
        · exact ⟨(f x u).2, by simp [callLog]⟩
        · obtain ⟨r, hr⟩ := ih (f x a).1 u hu
          exact ⟨r, by simp [callLog, hr]⟩
    have hthrough : ReachThrough ch ((callLog f x calls).1.map (fun e => (e.1, if e.2 then (0 : Int) else 1))) S v := by
      induction hv with
      | refl => exact Relation.ReflTransGen.refl
      | @tail u w _ hc ih =>
        obtain ⟨r, hr⟩ := hcalled calls x u (h5 hle u ih)
        refine Relation.ReflTransGen.tail ih ⟨List.mem_map.2 ⟨(u, r), hr, ?_⟩, hc⟩
        have hr' : r = true := hall _ hr
        simp [hr']
    exact h5 hle v hthrough

/-- C143: a callback that always returns true is called on every reachable node exactly once and on no other node. -/
theorem C143_all {σ : Type} (ch : ι → List ι) (S : ι) (f : σ → ι → σ × Bool) (hf : ∀ x u, (f x u).2 = true) (isStack : Option Bool) (x : σ) :
    ∃ calls : List ι, ListsReachable ch S calls ∧ doBFS ch S f isStack x = some (calls.foldl (fun x u => (f x u).1) x) := by
  rw [doBFS_eq]
  exact C10_search_all ch _ S _ (by simp [hf]) x

/-- A search that ends at a node, one with a stack and one with the default collection. -/
example :
    let ch : Fin 4 → List (Fin 4) := ![[1, 2], [3], [3, 0], []]
    doBFS ch 0 (fun (l : List (Fin 4)) u => (l ++ [u], true)) none [] = some [0, 1, 2, 3] ∧ doBFS ch 0 (fun (l : List (Fin 4)) u => (l ++ [u], true)) (some true) [] = some [0, 2, 3, 1] ∧
      doBFS ch 0 (fun (l : List (Fin 4)) u => (l ++ [u], decide (u ≠ 1))) none [] = some [0, 1] := by decide

end Gospn
