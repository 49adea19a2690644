import Verif.Proofs.Order
import Verif.Props.Search
import Verif.Props.TestInit
/-
C144: breadth-first order. C145: depth-first order.
-/
set_option linter.unusedSectionVars false
namespace Gospn
open Spec
variable {ι : Type} [DecidableEq ι] [Fintype ι]

/-- C144. `BreadthFirst` with a callback that always returns 0 calls it on every reachable node once, in the order of the distance from the root. -/
theorem C144_breadthFirst {σ : Type} (ch : ι → List ι) (G : ι) (f : σ → ι → σ × Int) (hf : ∀ x u, (f x u).2 = 0) (x : σ) :
    ∃ calls : List ι, ListsReachable ch G calls ∧ ByDistance ch G calls ∧ breadthFirst ch G f x = some (calls.foldl (fun x u => (f x u).1) x) :=
  ⟨workOrder ch false G, workOrder_lists ch false G, workOrder_distance ch G, work_static_pure _ (fun x u => (f x u).1) ch (by simp [hf]) false G x⟩

/-- C144 for `DoBFS` without a collection or with a queue. -/
theorem C144_doBFS {σ : Type} (ch : ι → List ι) (S : ι) (f : σ → ι → σ × Bool) (hf : ∀ x u, (f x u).2 = true) (c : Option Bool) (hc : c ≠ some true) (x : σ) :
    ∃ calls : List ι, ListsReachable ch S calls ∧ ByDistance ch S calls ∧ doBFS ch S f c x = some (calls.foldl (fun x u => (f x u).1) x) := by
  have hc' : c.getD false = false := by
    rcases c with _ | _ | _ <;> simp_all
  refine ⟨workOrder ch false S, workOrder_lists ch false S, workOrder_distance ch S, ?_⟩
  unfold doBFS
  rw [hc']
  exact work_static_pure _ (fun x u => (f x u).1) ch (by simp [hf]) false S x

/-- A graph with a shortcut: node 3 is a child of the root and of node 2, and comes before node 2's other child. -/
example :
    let ch : Fin 5 → List (Fin 5) := ![[1, 3], [2], [3, 4], [], []]
    breadthFirst ch 0 (fun (l : List (Fin 5)) u => (l ++ [u], 0)) [] = some [0, 1, 3, 2, 4] ∧ ¬ ByDistance ch 0 [0, 1, 2, 3, 4] := by
  refine ⟨by decide, fun h => ?_⟩
  have h23 := (List.pairwise_cons.1 (List.pairwise_cons.1 (List.pairwise_cons.1 h).2).2).1 3 (by simp)
  obtain ⟨n, hn, hw⟩ := h23 1 (Walk.step Walk.nil (by decide))
  rcases n with _ | _ | n
  · cases hw
  · cases hw with
    | step h0 hm => cases h0; revert hm; decide
  · omega

/-- C145, what holds: on a tree `DepthFirst` with a callback that always returns 0 calls it on every node once, in depth-first order.
Missing: graphs with shared nodes, for which it is false (`C145_refuted`). -/
theorem C145_tree_partial {σ : Type} (ch : ι → List ι) (G : ι) (ht : IsTree ch G) (f : σ → ι → σ × Int) (hf : ∀ x u, (f x u).2 = 0) (x : σ) :
    ∃ calls : List ι, ListsReachable ch G calls ∧ DepthFirstOrder ch calls ∧ depthFirst ch G f x = some (calls.foldl (fun x u => (f x u).1) x) :=
  ⟨workOrder ch true G, workOrder_lists ch true G, workOrder_dfs ch G ht, work_static_pure _ (fun x u => (f x u).1) ch (by simp [hf]) true G x⟩

example : IsTree (![[1, 2], [3], [], []] : Fin 4 → List (Fin 4)) 0 := by
  constructor <;> decide

/-- C145 is refuted: in an acyclic graph in which node 1 is a child of the root and of node 3, `DepthFirst` leaves node 3 for node 2 although node 1 has not been visited. The order 0, 3, 1, 2 would be depth first. -/
theorem C145_refuted :
    ∃ ch : Fin 4 → List (Fin 4), Acyclic ch ∧
      depthFirst ch 0 (fun (l : List (Fin 4)) u => (l ++ [u], 0)) [] = some [0, 3, 2, 1] ∧ ¬ DepthFirstOrder ch [0, 3, 2, 1] ∧ DepthFirstOrder ch [0, 3, 1, 2] := by
  refine ⟨![[1, 2, 3], [], [], [1]], ⟨![2, 0, 0, 1], by decide⟩, by decide, fun h => ?_, ?_⟩
  · obtain ⟨b₁, u, b₂, e1, e2, e3⟩ := h [0, 3] 2 [1] rfl (by simp)
    rcases b₁ with _ | ⟨p, _ | ⟨q, b₁⟩⟩
    · simp only [List.nil_append, List.cons.injEq] at e1
      obtain ⟨rfl, rfl⟩ := e1
      have := e3 3 (by simp) 1 (by decide)
      revert this; decide
    · simp only [List.cons_append, List.nil_append, List.cons.injEq] at e1
      obtain ⟨_, rfl, _⟩ := e1
      revert e2; decide
    · simp at e1
  · intro before x after h hne
    rcases before with _ | ⟨p, _ | ⟨q, _ | ⟨r, _ | ⟨t, b⟩⟩⟩⟩
    · exact absurd rfl hne
    · simp at h; obtain ⟨rfl, rfl, _⟩ := h; exact ⟨[], 0, [], rfl, by decide, by simp⟩
    · simp at h; obtain ⟨rfl, rfl, rfl, _⟩ := h; exact ⟨[0], 3, [], rfl, by decide, by simp⟩
    · simp at h; obtain ⟨rfl, rfl, rfl, rfl, _⟩ := h; exact ⟨[], 0, [3, 1], rfl, by decide, by decide⟩
    · simp at h

end Gospn
