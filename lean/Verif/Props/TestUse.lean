/-
C146: the check of testClassify. C147: the counts printed by package poon.
-/
import Verif.Model.TestUse
import Verif.Props.TestInit
import Verif.Props.Infer
import Verif.Proofs.Evaluate
import Verif.Props.Semantics

set_option linter.unusedSectionVars false
set_option linter.unusedSimpArgs false

namespace Gospn
open Spec GoFloat
variable {ι F : Type} [DecidableEq ι] [Fintype ι] [GoFloat F]

/-- C146, part: under the conditions of C04, with a ticket that has a table, and when no value of a reachable node is NaN (no value differs from itself), `testClassify` prints nothing, and the table of its ticket is empty afterwards while
the entries of other tickets are as before. Missing: networks in which `TopSortTarjan` does not list children first (`C146_refuted`). -/
theorem C146_silent_partial (N : Net ι F) (S : ι) (I : VarSet) (hac : Acyclic N.ch) (hso : SiblingOrdered N.ch S) (hS : N.ch S ≠ [])
    (hne : ∀ n cs w, N.kind n = .sum cs w → cs ≠ []) (st : Storer ι F) (hw : st.WF) (tk : Int) (h0 : 0 ≤ tk) (ht : st.table tk ≠ none)
    (hv : N.value I S ≠ none) (hnan : ∀ n x, Reach N.ch S n → N.value I n = some x → GoFloat.eq x x = true) :
    ∃ st', testClassify N S I st tk = some ([], st') ∧ (∀ n i, st'.entry tk n i = none) ∧ ∀ k, k ≠ tk → ∀ n i, st'.entry k n i = st.entry k n i := by
  rcases storeInference_core N S I hac hso hS hne st hw tk (Or.inr ht) with ⟨h, _⟩ | ⟨st1, h1, h2, h3, _⟩
  · exact absurd h hv
  · have htk : usedTicket st tk = tk := by unfold usedTicket; rw [if_neg (by omega)]
    rw [htk] at h1 h2 h3
    have hw1 : st1.WF := by
      obtain ⟨x, hx⟩ := Option.ne_none_iff_exists'.1 hv
      obtain ⟨st2, e1, e2, _⟩ := storeInference_good hac hso hS hne (tk := tk) ⟨hw, h0, ht⟩ hx
      rw [h1] at e1
      cases e1
      exact e2.1
    have hwork : work (fun (log : List (F × F)) s =>
      (N.value I s).map fun u =>
        let v := (st1.single tk s).getD (ofInt 0)
        (if !GoFloat.eq v u then log ++ [(v, u)] else log, some (N.ch s))) false S [] = some [] := by
      rw [work_static _ (fun log s => (N.value I s).map fun u => if !GoFloat.eq ((st1.single tk s).getD (ofInt 0)) u then log ++ [((st1.single tk s).getD (ofInt 0), u)] else log) N.ch
        (by intro x u; cases N.value I u <;> rfl)]
      have hall : ∀ n ∈ workOrder N.ch false S, Reach N.ch S n := fun n hn => ((workOrder_lists N.ch false S).2 n).1 hn
      generalize workOrder N.ch false S = l at hall
      induction l with
      | nil => rfl
      | cons n l ih =>
        obtain ⟨e1, e2⟩ := h2 n (hall n (by simp))
        obtain ⟨x, hx⟩ := Option.ne_none_iff_exists'.1 e2
        have e3 : st1.single tk n = some x := by unfold Storer.single; rw [e1, hx]
        have e4 := hnan n x (hall n (by simp)) hx
        rw [List.foldlM_cons]
        simp only [hx, e3, Option.map_some, Option.getD_some, e4, Bool.not_true, Bool.false_eq_true, if_false]
        exact ih (fun m hm => hall m (by simp [hm]))
    refine ⟨st1.reset tk, ?_, ?_, ?_⟩
    · unfold testClassify
      rw [h1]
      simp only [Option.bind_some, hwork, Option.map_some]
    · intro n i
      rw [Storer.reset, Storer.makeAt_entry (Storer.delete_wf hw1 tk), if_pos rfl]
    · intro k hk n i
      rw [← h3 k hk n i, Storer.reset, Storer.makeAt_entry (Storer.delete_wf hw1 tk), if_neg hk]
      simp [hk, Storer.entry, Storer.delete]

/-- The hypotheses of `C146_silent_partial` for a mixture, a new storage and an instance without values. -/
example : Acyclic mixNet.ch ∧ SiblingOrdered mixNet.ch 0 ∧ mixNet.ch 0 ≠ [] ∧ (∀ n cs w, mixNet.kind n = .sum cs w → cs ≠ []) ∧ (Storer.new : Storer _ XR).newTicket.2.WF (ι := Fin 5) ∧
    mixNet.value (fun _ => none) 0 ≠ none ∧ ∀ n x, Reach mixNet.ch 0 n → mixNet.value (fun _ => none) n = some x → GoFloat.eq x x = true := by
  have hl := discrete_eval mixNet_discrete (I := fun _ => none) (fun _ _ _ h => by cases h)
  have hp := fun {n} (h : Reach mixNet.ch 0 n) => (Net.prob_spec mixNet_acyclic mixNet_weights.nonneg hl h).1
  refine ⟨mixNet_acyclic, mixNet_siblings, by simp [mixNet, Net.ch], ?_, Storer.newTicket_wf Storer.new_wf, ?_, ?_⟩
  · intro n cs w hk
    fin_cases n <;> simp [mixNet] at hk
    rw [← hk.1]; simp
  · obtain ⟨x, h1, _⟩ := hp Relation.ReflTransGen.refl
    rw [h1]; simp
  · intro n x hr hx
    obtain ⟨y, h1, h2, _⟩ := hp hr
    rw [hx] at h1
    cases h1
    cases x <;> simp_all [IsLogProb, GoFloat.eq, XR.eq]

/-- C146 is refuted: in a network with an edge bridged by a longer path the check reports a difference, between 0 and minus infinity. -/
theorem C146_refuted : ∃ (N : Net (Fin 3) XR) (I : VarSet) (st : Storer (Fin 3) XR) (st' : Storer (Fin 3) XR) (log : List (XR × XR)), Acyclic N.ch ∧ st.WF ∧ st.table 0 ≠ none ∧
    testClassify N 0 I st 0 = some (log, st') ∧ (XR.fin 0, XR.ninf) ∈ log := by
  have hac : Acyclic skipNet.ch := by rw [skipNet_ch]; exact skipDag_acyclic
  have hl : XR.log (.fin (1 / 2)) = .fin (Real.log (1 / 2)) := XR.log_pos (by norm_num)
  have k0 : skipNet.kind 0 = .sum [1, 2] [.fin (1 / 2), .fin (1 / 2)] := rfl
  have k1 : skipNet.kind 1 = .leaf (.indicator 0 1) := rfl
  have k2 : skipNet.kind 2 = .product [1] := rfl
  have v1 : skipNet.value (fun _ => some 0) 1 = some .ninf := by
    rw [Net.value_unfold hac]; simp [Net.valueStep, skipNet, Leaf.value]
  have v2 : skipNet.value (fun _ => some 0) 2 = some .ninf := by
    rw [Net.value_unfold hac]; simp [Net.valueStep, k2, v1, prodCompute]
  obtain ⟨x0, v0⟩ : ∃ x, skipNet.value (fun _ => some 0) 0 = some x := by
    rw [Net.value_unfold hac]
    simp [Net.valueStep, k0, v1, v2, weighted, logSumExp, XR.lt, XR.log]
  obtain ⟨r, hr, hr2⟩ : ∃ r, skipNet.storeInference 0 (fun _ => some 0) 0 (Storer.new : Storer (Fin 3) XR).newTicket.2 = some r ∧ r.2.single 0 2 = some (.fin 0) := by
    unfold Net.storeInference
    rw [if_neg (by rw [skipNet_ch]; decide), skipNet_order]
    simp [Net.storeInfLoop, Net.storeInfStep, k0, k1, k2, Storer.newTicket, Storer.makeAt, Storer.new, Storer.table, Storer.deref,
      Storer.tableStore, Table.entry, Table.empty, Leaf.value, prodCompute, storeVals, logSumExp, XR.lt, XR.log, Storer.single,
      Storer.entry, Table.store, Function.update]
  have ho : workOrder skipNet.ch false 0 = [0, 1, 2] := by rw [skipNet_ch]; decide
  obtain ⟨log, h1, h2⟩ : ∃ log, testClassify skipNet 0 (fun _ => some 0) (Storer.new : Storer (Fin 3) XR).newTicket.2 0 = some (log, r.2.reset 0) ∧ (XR.fin 0, XR.ninf) ∈ log := by
    unfold testClassify
    rw [hr]
    simp only [Option.bind_some]
    rw [work_static _ (fun log s => (skipNet.value (fun _ => some 0) s).map fun u => if !GoFloat.eq ((r.2.single 0 s).getD (ofInt 0)) u then log ++ [((r.2.single 0 s).getD (ofInt 0), u)] else log) skipNet.ch
        (by intro x u; cases skipNet.value (fun _ => some 0) u <;> rfl), ho]
    simp only [List.foldlM_cons, List.foldlM_nil, v0, v1, v2, hr2, Option.map_some, Option.bind_eq_bind, Option.bind_some, Option.pure_def, Option.getD_some]
    refine ⟨_, rfl, ?_⟩
    have he : GoFloat.eq (XR.fin 0) XR.ninf = false := by simp [GoFloat.eq, XR.eq]
    simp [he]
  exact ⟨skipNet, fun _ => some 0, (Storer.new : Storer (Fin 3) XR).newTicket.2, r.2.reset 0, log, hac, Storer.newTicket_wf Storer.new_wf, by simp [Storer.newTicket, Storer.makeAt, Storer.table, Storer.new], h1, h2⟩

/-- C147. The counts printed are those of the sums, products and leaves reachable from the root. -/
theorem C147_counts (ch : ι → List ι) (ty : ι → NodeType) (S : ι) :
    ∃ nodes : List ι, ListsReachable ch S nodes ∧
      poonCounts ch ty S = some ((nodes.filter (fun u => ty u = .sum)).length, (nodes.filter (fun u => ty u = .product)).length, (nodes.filter (fun u => ty u = .leaf)).length) := by
  obtain ⟨nodes, h1, h2⟩ := C10_countNodes ch ty S
  refine ⟨nodes, h1, ?_⟩
  rw [← h2]
  unfold poonCounts countNodes breadthFirst
  rw [doBFS_eq]
  congr 1
  funext q s
  cases h : ty s <;> simp [h]

example : poonCounts (![[1, 2], [3], [3], []] : Fin 4 → List (Fin 4)) ![.sum, .product, .product, .leaf] 0 = some (1, 2, 1) := by decide

end Gospn
