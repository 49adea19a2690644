import Verif.Proofs.Search
import Mathlib.Data.Fin.VecNotation
/-!
Property C10: graph searches.
-/
set_option linter.unusedSectionVars false
namespace Gospn
open Spec
variable {ι : Type} [DecidableEq ι] [Fintype ι]

/-- The work function of `searchFunc`. -/
private def searchAct {σ : Type} (ch : ι → List ι) (f : σ → ι → σ × Int) : σ → ι → Option (σ × Option (List ι)) := fun x u =>
    let r := f x u
    if r.2 > 0 then some (r.1, none) else some (r.1, some (if r.2 = 0 then ch u else []))

private theorem searchAct_run {σ : Type} (ch : ι → List ι) (f : σ → ι → σ × Int) : ∀ (E : List (ι × List ι)) (x x' : σ),
    ActsRun (searchAct ch f) x E x' →
      (callLog f x (E.map Prod.fst)).2 = x' ∧ (∀ e ∈ (callLog f x (E.map Prod.fst)).1, e.2 ≤ 0) ∧
      (∀ u c, (∃ cs, (u, cs) ∈ E ∧ c ∈ cs) ↔ ((u, (0 : Int)) ∈ (callLog f x (E.map Prod.fst)).1 ∧ c ∈ ch u)) := by
  intro E
  induction E with
  | nil => intro x x' h; simp only [ActsRun] at h; subst h; simp [callLog]
  | cons e E ih =>
    obtain ⟨u, cs⟩ := e
    intro x x' h
    obtain ⟨y, hy, hr⟩ := h
    by_cases hp : (f x u).2 > 0
    · simp [searchAct, hp] at hy
    · simp only [searchAct, hp, if_false, Option.some.injEq, Prod.mk.injEq] at hy
      obtain ⟨rfl, hcs⟩ := hy
      obtain ⟨h1, h2, h3⟩ := ih _ _ hr
      simp only [List.map_cons, callLog]
      refine ⟨h1, ?_, ?_⟩
      · intro e he
        rcases List.mem_cons.1 he with rfl | he
        · simp only; omega
        · exact h2 e he
      · intro w c
        have h3' := h3 w c
        constructor
        · rintro ⟨cs', hm, hc⟩
          rcases List.mem_cons.1 hm with hm | hm
          · simp only [Prod.mk.injEq] at hm
            obtain ⟨rfl, rfl⟩ := hm
            by_cases h0 : (f x w).2 = 0
            · simp only [h0, if_true] at hcs; rw [← hcs] at hc; simp [h0, hc]
            · simp only [h0, if_false] at hcs; rw [← hcs] at hc; simp at hc
          · have := h3'.1 ⟨cs', hm, hc⟩
            exact ⟨List.mem_cons_of_mem _ this.1, this.2⟩
        · rintro ⟨hm, hc⟩
          rcases List.mem_cons.1 hm with hm | hm
          · simp only [Prod.mk.injEq] at hm
            obtain ⟨rfl, h0⟩ := hm
            rw [if_pos h0.symm] at hcs
            exact ⟨cs, by simp, by rw [← hcs]; exact hc⟩
          · obtain ⟨cs', h, h'⟩ := h3'.2 ⟨hm, hc⟩
            exact ⟨cs', List.mem_cons_of_mem _ h, h'⟩

private theorem callLog_snoc {σ ρ : Type} (f : σ → ι → σ × ρ) (l : List ι) (u : ι) : ∀ x : σ,
    callLog f x (l ++ [u]) = ((callLog f x l).1 ++ [(u, (f (callLog f x l).2 u).2)], (f (callLog f x l).2 u).1) := by
  induction l with
  | nil => intro x; simp [callLog]
  | cons a l ih => intro x; simp [callLog, ih]

/-- C10, for `BreadthFirst` (`isStack = false`) and `DepthFirst` (`isStack = true`) and every callback: the search returns, having
called the callback on a list of distinct nodes; the only call that can have returned a positive number is the last one; every node
called on is reachable along edges leaving nodes with result 0; and if no result was positive, every such node has been called on. -/
theorem C10_search {σ : Type} (ch : ι → List ι) (isStack : Bool) (G : ι) (f : σ → ι → σ × Int) (x : σ) :
    ∃ calls : List ι, calls.Nodup ∧
      searchFunc ch isStack G f x = some (callLog f x calls).2 ∧
      (∀ e ∈ (callLog f x calls).1.dropLast, e.2 ≤ 0) ∧
      (∀ v ∈ calls, ReachThrough ch (callLog f x calls).1 G v) ∧
      ((∀ e ∈ (callLog f x calls).1, e.2 ≤ 0) → ∀ v, ReachThrough ch (callLog f x calls).1 G v → v ∈ calls) := by
  obtain ⟨E, x', hrun, hnd, hreachE, h⟩ := work_dynamic (searchAct ch f) isStack G x
  obtain ⟨h1, h2, h3⟩ := searchAct_run ch f E x x' hrun
  have hrt : ∀ v, ReachLog E G v ↔ ReachThrough ch (callLog f x (E.map Prod.fst)).1 G v := by
    intro v
    have : (fun a b => ∃ cs, (a, cs) ∈ E ∧ b ∈ cs) = (fun a b => (a, (0 : Int)) ∈ (callLog f x (E.map Prod.fst)).1 ∧ b ∈ ch a) := by
      funext a b; exact propext (h3 a b)
    unfold ReachLog ReachThrough; rw [this]
  rcases h with ⟨he, hm⟩ | ⟨u, y, hu, hur, hact, he⟩ | ⟨u, hu, hur, hact, he⟩
  · refine ⟨E.map Prod.fst, hnd, ?_, ?_, ?_, ?_⟩
    · rw [h1]; exact he
    · intro e hx; exact h2 e (List.dropLast_subset _ hx)
    · intro v hv; exact (hrt v).1 ((hm v).1 hv)
    · intro _ v hv; exact (hm v).2 ((hrt v).2 hv)
  · have hpos : (f x' u).2 > 0 := by
      by_contra hp
      simp [searchAct, hp] at hact
    have hy : (f x' u).1 = y := by simpa [searchAct, hpos] using hact
    have mono : ∀ v, ReachLog E G v → ReachThrough ch (callLog f x (E.map Prod.fst ++ [u])).1 G v := by
      intro v hv
      have := (hrt v).1 hv
      rw [callLog_snoc]
      induction this with
      | refl => exact Relation.ReflTransGen.refl
      | tail _ hc ih =>
        refine Relation.ReflTransGen.tail (ih ((hrt _).2 ?_)) ⟨by simp [hc.1], hc.2⟩
        assumption
    refine ⟨E.map Prod.fst ++ [u], ?_, ?_, ?_, ?_, ?_⟩
    · rw [List.nodup_append]; refine ⟨hnd, by simp, ?_⟩
      intro a ha b hb hab; simp at hb; subst hb; exact hu (hab ▸ ha)
    · rw [callLog_snoc, h1, hy]; exact he
    · rw [callLog_snoc]; simpa using h2
    · intro v hv
      rcases List.mem_append.1 hv with hv | hv
      · exact mono v (hreachE v hv)
      · simp at hv; rw [hv]; exact mono u hur
    · intro hall
      exfalso
      rw [callLog_snoc, h1] at hall
      have := hall (u, (f x' u).2) (by simp)
      simp only at this; omega
  · exfalso
    by_cases hp : (f x' u).2 > 0 <;> simp [searchAct, hp] at hact

/-- C10: with a callback that always returns 0 every reachable node is called on exactly once and no other node. -/
theorem C10_search_all {σ : Type} (ch : ι → List ι) (isStack : Bool) (G : ι) (f : σ → ι → σ × Int) (hf : ∀ x u, (f x u).2 = 0) (x : σ) :
    ∃ calls : List ι, ListsReachable ch G calls ∧
      searchFunc ch isStack G f x = some (calls.foldl (fun x u => (f x u).1) x) := by
  refine ⟨workOrder ch isStack G, workOrder_lists ch isStack G, ?_⟩
  exact work_static_pure _ (fun x u => (f x u).1) ch (by simp [hf]) isStack G x

/-- A search that visits a cycle, one that skips a branch and one that stops early. -/
example :
    let ch : Fin 4 → List (Fin 4) := ![[1, 2], [3], [3, 0], []]
    breadthFirst ch 0 (fun (l : List (Fin 4)) u => (l ++ [u], 0)) [] = some [0, 1, 2, 3] ∧
    depthFirst ch 0 (fun (l : List (Fin 4)) u => (l ++ [u], 0)) [] = some [0, 2, 3, 1] ∧
    breadthFirst ch 0 (fun (l : List (Fin 4)) u => (l ++ [u], if u = 0 then 0 else -1)) [] = some [0, 1, 2] ∧
    breadthFirst ch 0 (fun (l : List (Fin 4)) u => (l ++ [u], if u = 1 then 1 else 0)) [] = some [0, 1] := by decide

/-- C10: with a queue and all results 0 the nodes are called on level by level, where a level function that grows by one along each edge exists. -/
theorem C10_breadth_first_levels (ch : ι → List ι) (G : ι) (level : ι → Nat) (hl : ∀ u, ∀ c ∈ ch u, level c = level u + 1) :
    ∃ calls : List ι, breadthFirst ch G (fun (l : List ι) u => (l ++ [u], 0)) [] = some calls ∧
      ListsReachable ch G calls ∧ (calls.map level).Pairwise (· ≤ ·) := by
  refine ⟨workOrder ch false G, ?_, workOrder_lists ch false G, workOrder_levels ch level hl G⟩
  have := work_static_pure (σ := List ι) (fun x u =>
    let r : List ι × Int := (x ++ [u], 0)
    if r.2 > 0 then some (r.1, none) else some (r.1, some (if r.2 = 0 then ch u else []))) (fun x u => x ++ [u]) ch (by simp) false G []
  rw [breadthFirst, searchFunc, this]
  congr 1
  have : ∀ (l acc : List ι), l.foldl (fun x u => x ++ [u]) acc = acc ++ l := by
    intro l; induction l with
    | nil => simp
    | cons a l ih => intro acc; simp [ih]
  simp [this]

example : ∀ u, ∀ c ∈ (![[1, 2], [3], [3], []] : Fin 4 → List (Fin 4)) u,
    (![0, 1, 1, 2] : Fin 4 → Nat) c = (![0, 1, 1, 2] : Fin 4 → Nat) u + 1 := by decide

/-- C10: `CountNodes` returns the numbers of sum, product and leaf nodes reachable from the root. -/
theorem C10_countNodes (ch : ι → List ι) (ty : ι → NodeType) (G : ι) :
    ∃ nodes : List ι, ListsReachable ch G nodes ∧
      countNodes ch ty G = some ((nodes.filter (fun u => ty u = .sum)).length, (nodes.filter (fun u => ty u = .product)).length,
        (nodes.filter (fun u => ty u = .leaf)).length) := by
  obtain ⟨calls, h1, h2⟩ := C10_search_all ch false G (fun (q : Nat × Nat × Nat) S =>
    match ty S with
    | .sum => ((q.1 + 1, q.2.1, q.2.2), 0)
    | .product => ((q.1, q.2.1 + 1, q.2.2), 0)
    | .leaf => ((q.1, q.2.1, q.2.2 + 1), 0)) (by intro x u; cases ty u <;> rfl) (0, 0, 0)
  refine ⟨calls, h1, ?_⟩
  have hfold : ∀ (l : List ι) (q : Nat × Nat × Nat), l.foldl (fun (q : Nat × Nat × Nat) S =>
      (match ty S with
      | .sum => ((q.1 + 1, q.2.1, q.2.2), (0 : Int))
      | .product => ((q.1, q.2.1 + 1, q.2.2), 0)
      | .leaf => ((q.1, q.2.1, q.2.2 + 1), 0)).1) q =
      (q.1 + (l.filter (fun u => ty u = .sum)).length, q.2.1 + (l.filter (fun u => ty u = .product)).length,
        q.2.2 + (l.filter (fun u => ty u = .leaf)).length) := by
    intro l
    induction l with
    | nil => intro q; simp
    | cons a l ih =>
      intro q
      rw [List.foldl_cons, ih]
      cases h : ty a <;> simp [h] <;> omega
  rw [hfold] at h2
  simp only [Nat.zero_add] at h2
  exact h2

example : countNodes (![[1, 2], [3], [3], []] : Fin 4 → List (Fin 4)) ![.sum, .product, .product, .leaf] 0 = some (1, 2, 1) := by decide

end Gospn
