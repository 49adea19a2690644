import Verif.Proofs.TopoVariants
import Mathlib.Tactic.FinCases
import Mathlib.Data.Fin.VecNotation
/-!
Properties C01 and C02: topological orderings.
-/
set_option linter.unusedSectionVars false
namespace Gospn
open Spec
variable {ι : Type} [DecidableEq ι] [Fintype ι]

/-- C01: on a graph without cycles there is one dependency ordering `out` of the nodes below the root such that both recursive
functions append it to a queue (a nil collection being an empty queue) and push it on a stack, so that taking from
the stack yields it in reverse. -/
theorem C01_recursive_order (ch : ι → List ι) (G : ι) (hac : Acyclic ch) :
    ∃ out, DependencyOrder ch G out ∧
      topSortTarjanRec ch G none = ⟨false, out⟩ ∧ postOrder ch G none = ⟨false, out⟩ ∧
      (∀ l, topSortTarjanRec ch G (some ⟨false, l⟩) = ⟨false, l ++ out⟩ ∧ postOrder ch G (some ⟨false, l⟩) = ⟨false, l ++ out⟩) ∧
      (∀ l, topSortTarjanRec ch G (some ⟨true, l⟩) = ⟨true, out.reverse ++ l⟩ ∧
        postOrder ch G (some ⟨true, l⟩) = ⟨true, out.reverse ++ l⟩) := by
  obtain ⟨out, h1, h2, h3, h4⟩ := visit_root_spec ch G
  refine ⟨out, ⟨h1, h2 hac⟩, ?_, ?_, fun l => ⟨?_, ?_⟩, fun l => ⟨?_, ?_⟩⟩ <;>
    simp [h3, h4, Coll.orQueue, Coll.giveAll_queue, Coll.giveAll_stack]

/-- C01, on graphs with cycles too: exactly the reachable nodes, each once, and both functions agree. -/
theorem C01_recursive_exactly_once (ch : ι → List ι) (G : ι) :
    ListsReachable ch G (topSortTarjanRec ch G none).items ∧ postOrder ch G none = topSortTarjanRec ch G none := by
  obtain ⟨out, h1, _, h3, h4⟩ := visit_root_spec ch G
  simp [h3, h4, Coll.orQueue, Coll.giveAll_queue, h1]

/-- The three-node graph `0 → 1, 2` and `2 → 1` (a node shared along paths of different length). -/
def skipDag : Fin 3 → List (Fin 3) := ![[1, 2], [], [1]]

theorem skipDag_acyclic : Acyclic skipDag := ⟨![2, 0, 1], by decide⟩

example : Acyclic skipDag ∧ topSortTarjanRec skipDag 0 none = ⟨false, [1, 2, 0]⟩ := ⟨skipDag_acyclic, by decide⟩

/-- C02, part. On every finite graph, cycles included, `TopSortTarjan` gives exactly the reachable nodes, each once, in an order
that does not depend on the collection. It is a dependency ordering if the graph has no cycles and no child of a node can be
reached from a sibling listed after it. Missing for the full property: graphs where such a sibling exists
(`C02_tarjan_order_refuted`). -/
theorem C02_iterative_order_partial (ch : ι → List ι) (G : ι) :
    ∃ out, ListsReachable ch G out ∧ (Acyclic ch → SiblingOrdered ch G → DependencyOrder ch G out) ∧
      topSortTarjan ch G none = ⟨false, out⟩ ∧
      (∀ l, topSortTarjan ch G (some ⟨false, l⟩) = ⟨false, l ++ out⟩) ∧
      (∀ l, topSortTarjan ch G (some ⟨true, l⟩) = ⟨true, out.reverse ++ l⟩) := by
  refine ⟨tarjanOrder ch G, tarjanOrder_listsReachable ch G,
    fun h1 h2 => ⟨tarjanOrder_listsReachable ch G, tarjanOrder_childrenFirst h1 h2⟩, ?_, ?_, ?_⟩
  · rw [topSortTarjan_eq]; simp [Coll.orQueue, Coll.giveAll_queue]
  · intro l; rw [topSortTarjan_eq]; simp [Coll.orQueue, Coll.giveAll_queue]
  · intro l; rw [topSortTarjan_eq]; simp [Coll.orQueue, Coll.giveAll_stack]

/-- C02, part: without cycles and without edges that a longer path bridges, `TopSortTarjan` returns a dependency ordering. Trees and
layered networks are of this kind. -/
theorem C02_transitively_reduced_partial (ch : ι → List ι) (G : ι) (hac : Acyclic ch) (h : TransitivelyReduced ch G) :
    DependencyOrder ch G (topSortTarjan ch G none).items :=
  ⟨tarjanOrder_listsReachable ch G, tarjanOrder_childrenFirst hac h.siblingOrdered⟩

/-- The diamond `0 → 1, 2`, `1 → 3`, `2 → 3` is such a graph. -/
def diamond : Fin 4 → List (Fin 4) := ![[1, 2], [3], [3], []]

theorem diamond_acyclic : Acyclic diamond := ⟨![2, 1, 1, 0], by decide⟩

theorem diamond_reduced : TransitivelyReduced diamond 0 := by
  intro w _ a ha b hb hr
  have hr0 := Reach.rank_le (rank := ![2, 1, 1, 0]) (ch := diamond) (by decide) hr
  rcases Relation.ReflTransGen.cases_head hr with h | ⟨c, hc, hr'⟩
  · exact h
  · have := Reach.rank_le (rank := ![2, 1, 1, 0]) (ch := diamond) (by decide) hr'
    fin_cases w <;> fin_cases a <;> fin_cases b <;> fin_cases c <;> simp_all [diamond]

example : Acyclic diamond ∧ TransitivelyReduced diamond 0 ∧ (topSortTarjan diamond 0 none).items = [3, 2, 1, 0] :=
  ⟨diamond_acyclic, diamond_reduced, by decide⟩

/-- C02, part: `TopSortTarjanFunc` calls the callback on the nodes in the order of `TopSortTarjan`, up to and including the first call that
returns false, and gives to the collection exactly the nodes the callback was called on. -/
theorem C02_tarjanFunc_partial {σ : Type} (ch : ι → List ι) (G : ι) (C : Option (Coll ι)) (f : σ → ι → σ × Bool) (x : σ) :
    topSortTarjanFunc ch G C f x =
      let called := callUntilFalse f x (topSortTarjan ch G none).items
      (called.1.foldl Coll.give (Coll.orQueue C), called.2) :=
  topSortTarjanFunc_eq ch G C f x

/-- C02, part: with a callback that always returns true `TopSortTarjanFunc` returns what `TopSortTarjan` returns. -/
theorem C02_tarjanFunc_true_partial {σ : Type} (ch : ι → List ι) (G : ι) (C : Option (Coll ι)) (f : σ → ι → σ × Bool) (x : σ)
    (hf : ∀ x u, (f x u).2 = true) : (topSortTarjanFunc ch G C f x).1 = topSortTarjan ch G C := by
  rw [topSortTarjanFunc_eq, callUntilFalse_true f hf, topSortTarjan_eq]

example : topSortTarjanFunc diamond 0 none (fun (n : Nat) _ => (n + 1, decide (n < 2))) 0 = (⟨false, [3, 2, 1]⟩, 3) := by decide

/-- C02, part: `TopSortDFS` returns every reachable node at least once and nothing else, and exactly what `TopSortTarjan` returns
when no node lists a child twice. Missing: repeated children, see `C02_dfs_duplicate_refuted`. -/
theorem C02_dfs_partial (ch : ι → List ι) (G : ι) (C : Option (Coll ι)) :
    (∃ out : List ι, topSortDFS ch G C = out.foldl Coll.give (Coll.orQueue C) ∧ ∀ x, x ∈ out ↔ Reach ch G x) ∧
    ((∀ u, (ch u).Nodup) → topSortDFS ch G C = topSortTarjan ch G C) :=
  ⟨topSortDFS_lists ch G C, topSortDFS_eq_tarjan ch G C⟩

example : (∀ u, (diamond u).Nodup) ∧ topSortDFS diamond 0 none = ⟨false, [3, 2, 1, 0]⟩ := by decide

/-- The full statement of C02 is false: on the acyclic three-node graph all iterative functions list node 2 before its child 1. -/
theorem C02_tarjan_order_refuted :
    ∃ (ch : Fin 3 → List (Fin 3)), Acyclic ch ∧
      topSortTarjan ch 0 none = ⟨false, [2, 1, 0]⟩ ∧ topSortDFS ch 0 none = ⟨false, [2, 1, 0]⟩ ∧
      (topSortTarjanFunc ch 0 none (fun (_ : Unit) _ => ((), true)) ()).1 = ⟨false, [2, 1, 0]⟩ ∧
      ¬ ChildrenFirst ch [2, 1, 0] := by
  refine ⟨skipDag, skipDag_acyclic, by decide, by decide, by decide, ?_⟩
  intro h
  exact absurd (h [] 2 [1, 0] rfl 1 (by decide)) (by simp)

/-- `TopSortDFS` lists a node twice when it is listed twice as a child. -/
theorem C02_dfs_duplicate_refuted :
    ∃ (ch : Fin 2 → List (Fin 2)), Acyclic ch ∧ topSortDFS ch 0 none = ⟨false, [1, 1, 0]⟩ :=
  ⟨![[1, 1], []], ⟨![1, 0], by decide⟩, by decide⟩

end Gospn
