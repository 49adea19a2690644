import Verif.Proofs.DeriveWeights
import Verif.Props.Semantics
/-!
Properties C31 to C33: derivatives and gradient steps.
-/
set_option linter.unusedSectionVars false
namespace Gospn
open Spec GoFloat

variable {ι : Type} [DecidableEq ι] [Fintype ι]

/-! ### C31 -/

/-- The table of ticket `itk` holds the logarithm of `p` for every node below `S`. -/
def InferenceStored (st : Storer ι XR) (itk : Int) (N : Net ι XR) (S : ι) (p : ι → ℝ) : Prop :=
  ∀ n, Reach N.ch S n → ∃ x, st.entry itk n 0 = some x ∧ IsLogProb x ∧ unlog x = p n

private theorem derive_start {N : Net ι XR} {S : ι} {p : ι → ℝ} {st : Storer ι XR} (hw : st.WF) {tk itk : Int} (ht : tk < 0 ∨ st.table tk ≠ none)
    (hne : itk ≠ usedTicket st tk) (hemp : ¬ tk < 0 → ∀ n, st.entry tk n 0 = none) (hinf : InferenceStored st itk N S p) :
    ∃ a ai, (newIfNeg tk st).1 = usedTicket st tk ∧ (newIfNeg tk st).2.table (usedTicket st tk) = some a ∧ (newIfNeg tk st).2.table itk = some ai ∧ ai ≠ a ∧
      (newIfNeg tk st).2.WF ∧ (∀ n, tab0 a (newIfNeg tk st).2 n = none) ∧ HoldsLogs ((newIfNeg tk st).2.heap ai) N S p ∧
      (∀ k, k ≠ usedTicket st tk → ∀ n i, (newIfNeg tk st).2.entry k n i = st.entry k n i) ∧
      (∀ n i, (newIfNeg tk st).2.entry (usedTicket st tk) n i = if tk < 0 then none else st.entry tk n i) := by
  have e : newIfNeg tk st = dpStart st tk := rfl
  rw [e]
  obtain ⟨h1, a, h2, h3, h4, h5⟩ := dpStart_spec hw ht
  have htab : ∀ n i, (dpStart st tk).2.entry itk n i = st.entry itk n i := h4 itk hne
  obtain ⟨x0, hx0, _⟩ := hinf S Relation.ReflTransGen.refl
  rw [← htab] at hx0
  obtain ⟨ai, hai⟩ : ∃ ai, (dpStart st tk).2.table itk = some ai := by
    unfold Storer.entry at hx0
    cases hs : (dpStart st tk).2.tables itk with
    | none => simp [hs] at hx0
    | some b => exact ⟨b, hs⟩
  have hdr : ∀ k b, (dpStart st tk).2.table k = some b → ∀ n i, ((dpStart st tk).2.heap b).entry n i = (dpStart st tk).2.entry k n i := by
    intro k b hk n i
    have hk' : (dpStart st tk).2.tables k = some b := hk
    simp [Storer.entry, hk']
  refine ⟨a, ai, h1, h2, hai, ?_, h3, ?_, ?_, h4, h5⟩
  · rintro rfl; exact hne (h3.inj _ _ _ hai h2)
  · intro n
    have : tab0 a (dpStart st tk).2 n = (dpStart st tk).2.entry (usedTicket st tk) n 0 := hdr _ _ h2 n 0
    rw [this, h5]
    by_cases h : tk < 0
    · simp [h]
    · simp [h, hemp h]
  · intro n hn
    rw [hdr _ _ hai, htab]
    obtain ⟨x, hx, h1, h2⟩ := hinf n hn
    rw [hx]; exact ⟨h1, h2⟩

/-- Where the search visits every inner node after all of its parents: inner nodes arranged in levels and a queue, or inner nodes in a tree and any collection. -/
def GoodSearch (N : Net ι XR) (S : ι) (isStack : Bool) : Prop := (Levelled N S ∧ isStack = false) ∨ InnerTree N S

/-- C31, part: if the inner nodes below `S` form levels (and the collection is a queue) or a tree (and the collection is a queue or a stack), then `DeriveSPN` with a
fresh ticket, given stored values `p`, returns and gives every node below `S` the logarithm of the partial derivative of the value of `S` with respect to
the value of that node; no other entry of the storage changes. Missing: other networks, where the claim is false (`C31_queue_refuted`, `C31_stack_refuted`). -/
theorem C31_deriveSPN_partial (N : Net ι XR) (S : ι) (p : ι → ℝ) (hac : Acyclic N.ch) (hwt : NonnegWeights N S) (hp : IsValuation N S p) (isStack : Bool)
    (hord : GoodSearch N S isStack) (st : Storer ι XR) (hw : st.WF) (tk itk : Int) (ht : tk < 0 ∨ st.table tk ≠ none)
    (hne : itk ≠ usedTicket st tk) (hemp : ¬ tk < 0 → ∀ n, st.entry tk n 0 = none) (hinf : InferenceStored st itk N S p) :
    ∃ st', N.deriveSPN S st tk itk isStack = some (usedTicket st tk, st') ∧ st'.WF ∧
      st'.tickets = (if tk < 0 then st.tickets + 1 else st.tickets) ∧
      (∀ n, Reach N.ch S n → ∃ e, st'.entry (usedTicket st tk) n 0 = some e ∧ IsLogProb e ∧ IsPartial N S p n (unlog e)) ∧
      (∀ k, k ≠ usedTicket st tk → ∀ n i, st'.entry k n i = st.entry k n i) ∧
      (∀ n i, (¬ Reach N.ch S n ∨ i ≠ 0) → st'.entry (usedTicket st tk) n i = if tk < 0 then none else st.entry tk n i) := by
  obtain ⟨a, ai, h1, h2, h3, h4, h5, h6, h7, h8, h9⟩ := derive_start hw ht hne hemp hinf
  have hpf : ParentsFirst N S (workOrder N.innerCh isStack S) := by
    rcases hord with ⟨h, rfl⟩ | h
    · exact parentsFirst_queue hac h
    · exact parentsFirst_tree hac h isStack
  obtain ⟨st1, st2, g1, g2, ⟨l, g3, g3'⟩, g4, g5, g6⟩ := derive_work hac hwt h4 (newIfNeg tk st).2 h6 h7 isStack hpf
  obtain ⟨f1, f2, f3⟩ := frame_entries h5 h2 g3
  have hG : ∀ m, cur a st2 m ≠ 0 → Reach N.ch S m := by
    intro m hm
    rw [← g6]
    intro h; simp [cur, h] at hm
  refine ⟨st2, ?_, g3.wf h5, ?_, ?_, ?_, ?_⟩
  · unfold Net.deriveSPN
    simp only [h1, h2, h3, g1, Option.bind_some, g2, Option.map_some]
  · rw [g3.tickets]; unfold newIfNeg; split <;> rfl
  · intro n hn
    obtain ⟨e, he⟩ := Option.ne_none_iff_exists'.1 ((g6 n).2 hn)
    refine ⟨e, by rw [f3, he], g4 n e he, ?_⟩
    have := isPartial_of_backward hac hp (cur a st2) g5 hG n
    simpa [cur, he] using this
  · intro k hk n i; rw [f1 k hk, h8 k hk]
  · intro n i hn
    rw [f2 n i (hn.imp_left (fun h h' => h (g3' n h'))), h9]

/-- C31 with the call of `StoreInference` before it, part: on any storage that a client can reach, `StoreInference` with a new ticket followed by `DeriveSPN` with a new ticket
gives the logarithm of the partial derivatives at the probabilities of the nodes under the evidence. Missing: as above, and networks on which `StoreInference` goes wrong. -/
theorem C31_after_storeInference_partial (N : Net ι XR) (S : ι) (I : VarSet) (hac : Acyclic N.ch) (hso : SiblingOrdered N.ch S) (hS : N.ch S ≠ [])
    (hne : ∀ n cs w, N.kind n = .sum cs w → cs ≠ []) (hwt : NonnegWeights N S) (hl : LeavesEval N S I) (isStack : Bool) (hord : GoodSearch N S isStack)
    (ops : List (StOp ι XR)) (c : Client ι XR) (outs : List (StOut XR)) (hr : Client.new.run ops = some (c, outs)) :
    ∃ st1 st2, N.storeInference S I (-1) c.s = some (some (S, c.s.tickets), st1) ∧ N.deriveSPN S st1 (-1) c.s.tickets isStack = some (c.s.tickets + 1, st2) ∧
      st2.WF ∧ st2.tickets = c.s.tickets + 2 ∧
      (∀ n, Reach N.ch S n → st2.entry c.s.tickets n 0 = N.value I n) ∧
      (∀ n, Reach N.ch S n → ∃ e, st2.entry (c.s.tickets + 1) n 0 = some e ∧ IsLogProb e ∧ IsPartial N S (N.prob I) n (unlog e)) ∧
      (∀ k, k ≠ c.s.tickets → k ≠ c.s.tickets + 1 → ∀ n i, st2.entry k n i = c.s.entry k n i) := by
  have hu : usedTicket c.s (-1) = c.s.tickets := by simp [usedTicket]
  have hw : c.s.WF := Client.run_wf ops Storer.new_wf hr
  rcases C04_storeInference_partial N S I hac hso hS hne ops c outs hr (-1) (Or.inl (by omega)) with ⟨h, _⟩ | ⟨st1, h1, h2, h3, h4⟩
  · obtain ⟨⟨x, hx, _⟩, _⟩ := Net.prob_spec hac hwt hl (n := S) Relation.ReflTransGen.refl
    rw [h] at hx; cases hx
  · rw [hu] at h1 h2 h3
    have hwf : st1.WF ∧ st1.tickets = c.s.tickets + 1 := storeInference_wf hw h1 hS
    have hut : usedTicket st1 (-1) = c.s.tickets + 1 := by simp [usedTicket, hwf.2]
    have hval : IsValuation N S (N.prob I) := prob_isValuation hac hwt hl
    obtain ⟨st2, g1, g2, g2', g3, g4, g5⟩ := C31_deriveSPN_partial N S (N.prob I) hac hwt hval isStack hord st1 hwf.1 (-1) c.s.tickets (Or.inl (by omega)) (by rw [hut]; omega)
      (by omega) (by
        intro n hn
        obtain ⟨⟨x, hx, hx1, hx2⟩, _⟩ := Net.prob_spec hac hwt hl hn
        exact ⟨x, by rw [(h2 n hn).1, hx], hx1, hx2⟩)
    rw [hut] at g1 g3 g4
    refine ⟨st1, st2, h1, g1, g2, by rw [g2', hwf.2]; simp; omega, ?_, g3, ?_⟩
    · intro n hn; rw [g4 _ (by omega), (h2 n hn).1]
    · intro k hk hk' n i; rw [g4 k hk', h3 k hk]

/-- Node 4 lies two steps below the root on one path and three on another. -/
noncomputable def ladderNet : Net (Fin 6) XR := ⟨![.sum [1, 2] [.fin (1 / 2), .fin (1 / 2)], .product [4], .product [3], .product [4], .product [5], .leaf (.indicator 0 1)]⟩

/-- Two products share their only child. -/
noncomputable def sharedNet : Net (Fin 5) XR := ⟨![.sum [1, 2] [.fin (1 / 2), .fin (1 / 2)], .product [3], .product [3], .product [4], .leaf (.indicator 0 1)]⟩

/-- A storage whose ticket 0 holds probability one for every node. -/
noncomputable def onesStore (ι : Type) : Storer ι XR :=
  ⟨fun a _ => if a = 0 then some (fun i => if i = 0 then some (.fin 0) else none) else none, 1, fun k => if k = 0 then some 0 else none, 1⟩

theorem onesStore_wf : (onesStore ι).WF := by
  refine ⟨?_, ?_, ?_⟩
  · intro k a h
    simp only [onesStore] at h ⊢
    split at h <;> simp at h
    omega
  · intro k k' a h h'
    simp only [onesStore] at h h'
    split at h <;> simp at h
    split at h' <;> simp at h'
    omega
  · intro a S v h
    simp only [onesStore] at h
    split at h <;> simp at h
    subst h
    exact ⟨0, by simp⟩

theorem onesStore_stored (N : Net ι XR) (S : ι) : InferenceStored (onesStore ι) 0 N S (fun _ => 1) := by
  intro n _
  exact ⟨.fin 0, by simp [onesStore, Storer.entry, Table.entry], trivial, by simp⟩

/-- What `DeriveSPN` leaves at a node, whatever the network: the derivatives accumulated in the order of the search. -/
private theorem derive_run {N : Net ι XR} {S : ι} {p : ι → ℝ} (hwt : NonnegWeights N S) (isStack : Bool) {st : Storer ι XR} (hw : st.WF) {itk : Int}
    (hne : itk ≠ st.tickets) (hinf : InferenceStored st itk N S p) {n : ι} (hn : Reach N.ch S n) :
    ∃ st' e, N.deriveSPN S st (-1) itk isStack = some (st.tickets, st') ∧ st'.entry st.tickets n 0 = some e ∧
      unlog e = (workOrder N.innerCh isStack S).foldl (accStep N p) (fun n => if n = S then 1 else 0) n := by
  have hu : usedTicket st (-1) = st.tickets := by simp [usedTicket]
  obtain ⟨a, ai, h1, h2, h3, h4, h5, h6, h7, h8, h9⟩ := derive_start (tk := -1) hw (Or.inl (by omega)) (by rw [hu]; exact hne) (by omega) hinf
  obtain ⟨st1, st2, g1, g2, ⟨l, g3, g3'⟩, g4, g5, g6⟩ := derive_any hwt h4 (newIfNeg (-1) st).2 h6 h7 isStack
  rw [hu] at h1 h2
  obtain ⟨f1, f2, f3⟩ := frame_entries h5 h2 g3
  obtain ⟨e, he⟩ := Option.ne_none_iff_exists'.1 ((g6 n).2 hn)
  refine ⟨st2, e, ?_, by rw [f3, he], ?_⟩
  · unfold Net.deriveSPN
    simp only [h1, h2, h3, g1, Option.bind_some, g2, Option.map_some]
  · rw [← g5]; simp [cur, he]

theorem ladderNet_acyclic : Acyclic ladderNet.ch := by
  have : ladderNet.ch = ![[1, 2], [4], [3], [4], [5], []] := by funext i; fin_cases i <;> rfl
  rw [this]; exact ⟨![4, 2, 3, 2, 1, 0], by decide⟩

theorem sharedNet_acyclic : Acyclic sharedNet.ch := by
  have : sharedNet.ch = ![[1, 2], [3], [3], [4], []] := by funext i; fin_cases i <;> rfl
  rw [this]; exact ⟨![3, 2, 2, 1, 0], by decide⟩

private theorem ladder_reach : Reach ladderNet.ch 0 5 :=
  (((Relation.ReflTransGen.refl.tail (show (1 : Fin 6) ∈ ladderNet.ch 0 by simp [ladderNet, Net.ch])).tail
    (show (4 : Fin 6) ∈ ladderNet.ch 1 by simp [ladderNet, Net.ch])).tail (show (5 : Fin 6) ∈ ladderNet.ch 4 by simp [ladderNet, Net.ch]))

private theorem shared_reach : Reach sharedNet.ch 0 4 :=
  (((Relation.ReflTransGen.refl.tail (show (1 : Fin 5) ∈ sharedNet.ch 0 by simp [sharedNet, Net.ch])).tail
    (show (3 : Fin 5) ∈ sharedNet.ch 1 by simp [sharedNet, Net.ch])).tail (show (4 : Fin 5) ∈ sharedNet.ch 3 by simp [sharedNet, Net.ch]))

theorem ladderNet_ok : NonnegWeights ladderNet 0 ∧ IsValuation ladderNet 0 (fun _ => 1) ∧ IsPartial ladderNet 0 (fun _ => 1) 5 1 := by
  have hv : IsValuation ladderNet 0 (fun _ => 1) := by
    intro m _
    fin_cases m <;> norm_num [ladderNet, nodeValue, realOf]
  refine ⟨?_, hv, ?_⟩
  · intro n _ cs w hk
    fin_cases n <;> simp [ladderNet] at hk
    obtain ⟨rfl, rfl⟩ := hk
    exact ⟨by simp, [1 / 2, 1 / 2], by simp, by simp, by norm_num⟩
  · have h := isPartial_of_backward ladderNet_acyclic hv ![1, 1 / 2, 1 / 2, 1 / 2, 1, 1] (by
      intro c
      fin_cases c <;> (simp +decide [Fin.sum_univ_succ, edgeCoef, coefs, ladderNet, realOf] <;> norm_num)) ?_ 5
    · simpa using h
    · intro m _
      have r1 : Reach ladderNet.ch 0 1 := Relation.ReflTransGen.single (show (1 : Fin 6) ∈ ladderNet.ch 0 by simp [ladderNet, Net.ch])
      have r2 : Reach ladderNet.ch 0 2 := Relation.ReflTransGen.single (show (2 : Fin 6) ∈ ladderNet.ch 0 by simp [ladderNet, Net.ch])
      have r3 : Reach ladderNet.ch 0 3 := r2.tail (show (3 : Fin 6) ∈ ladderNet.ch 2 by simp [ladderNet, Net.ch])
      have r4 : Reach ladderNet.ch 0 4 := r1.tail (show (4 : Fin 6) ∈ ladderNet.ch 1 by simp [ladderNet, Net.ch])
      fin_cases m
      · exact Relation.ReflTransGen.refl
      · exact r1
      · exact r2
      · exact r3
      · exact r4
      · exact ladder_reach

theorem sharedNet_ok : NonnegWeights sharedNet 0 ∧ IsValuation sharedNet 0 (fun _ => 1) ∧ IsPartial sharedNet 0 (fun _ => 1) 4 1 ∧ Levelled sharedNet 0 := by
  have hv : IsValuation sharedNet 0 (fun _ => 1) := by
    intro m _
    fin_cases m <;> norm_num [sharedNet, nodeValue, realOf]
  refine ⟨?_, hv, ?_, ?_⟩
  · intro n _ cs w hk
    fin_cases n <;> simp [sharedNet] at hk
    obtain ⟨rfl, rfl⟩ := hk
    exact ⟨by simp, [1 / 2, 1 / 2], by simp, by simp, by norm_num⟩
  · have h := isPartial_of_backward sharedNet_acyclic hv ![1, 1 / 2, 1 / 2, 1, 1] (by
      intro c
      fin_cases c <;> (simp +decide [Fin.sum_univ_succ, edgeCoef, coefs, sharedNet, realOf] <;> norm_num)) ?_ 4
    · simpa using h
    · intro m _
      have r1 : Reach sharedNet.ch 0 1 := Relation.ReflTransGen.single (show (1 : Fin 5) ∈ sharedNet.ch 0 by simp [sharedNet, Net.ch])
      have r2 : Reach sharedNet.ch 0 2 := Relation.ReflTransGen.single (show (2 : Fin 5) ∈ sharedNet.ch 0 by simp [sharedNet, Net.ch])
      have r3 : Reach sharedNet.ch 0 3 := r2.tail (show (3 : Fin 5) ∈ sharedNet.ch 2 by simp [sharedNet, Net.ch])
      fin_cases m
      · exact Relation.ReflTransGen.refl
      · exact r1
      · exact r2
      · exact r3
      · exact shared_reach
  · refine ⟨![0, 1, 1, 2, 3], ?_⟩
    intro u _ c hc _
    fin_cases u <;> simp [sharedNet, Net.ch] at hc <;> (try rcases hc with rfl | rfl) <;> simp

/-- C31 is false with a queue when paths to an inner node have different lengths: the derivative with respect to the leaf is 1 but `DeriveSPN` reports one half,
because node 4 passes its derivative on before node 3 has added its part. -/
theorem C31_queue_refuted : ∃ (N : Net (Fin 6) XR) (p : Fin 6 → ℝ) (st : Storer (Fin 6) XR), Acyclic N.ch ∧ NonnegWeights N 0 ∧ IsValuation N 0 p ∧ st.WF ∧
    InferenceStored st 0 N 0 p ∧ IsPartial N 0 p 5 1 ∧
    ∃ st' e, N.deriveSPN 0 st (-1) 0 false = some (1, st') ∧ st'.entry 1 5 0 = some e ∧ unlog e = 1 / 2 := by
  refine ⟨ladderNet, fun _ => 1, onesStore (Fin 6), ladderNet_acyclic, ladderNet_ok.1, ladderNet_ok.2.1, onesStore_wf, onesStore_stored _ _, ladderNet_ok.2.2, ?_⟩
  obtain ⟨st', e, h1, h2, h3⟩ := derive_run ladderNet_ok.1 false (st := onesStore (Fin 6)) onesStore_wf (itk := 0) (by simp [onesStore]) (onesStore_stored ladderNet 0) ladder_reach
  refine ⟨st', e, h1, h2, ?_⟩
  have hi : ladderNet.innerCh = ![[1, 2], [4], [3], [4], [], []] := by
    funext i; fin_cases i <;> simp [Net.innerCh, Net.ch, Net.type, ladderNet]
  have ho : workOrder ladderNet.innerCh false 0 = [0, 1, 2, 4, 3] := by rw [hi]; decide
  rw [h3, ho]
  simp +decide [accStep, edgeCoef, coefs, ladderNet, realOf]

/-- C31 is false with a stack already when the inner nodes form levels. -/
theorem C31_stack_refuted : ∃ (N : Net (Fin 5) XR) (p : Fin 5 → ℝ) (st : Storer (Fin 5) XR), Acyclic N.ch ∧ Levelled N 0 ∧ NonnegWeights N 0 ∧ IsValuation N 0 p ∧ st.WF ∧
    InferenceStored st 0 N 0 p ∧ IsPartial N 0 p 4 1 ∧
    ∃ st' e, N.deriveSPN 0 st (-1) 0 true = some (1, st') ∧ st'.entry 1 4 0 = some e ∧ unlog e = 1 / 2 := by
  refine ⟨sharedNet, fun _ => 1, onesStore (Fin 5), sharedNet_acyclic, sharedNet_ok.2.2.2, sharedNet_ok.1, sharedNet_ok.2.1, onesStore_wf, onesStore_stored _ _, sharedNet_ok.2.2.1, ?_⟩
  obtain ⟨st', e, h1, h2, h3⟩ := derive_run sharedNet_ok.1 true (st := onesStore (Fin 5)) onesStore_wf (itk := 0) (by simp [onesStore]) (onesStore_stored sharedNet 0) shared_reach
  refine ⟨st', e, h1, h2, ?_⟩
  have hi : sharedNet.innerCh = ![[1, 2], [3], [3], [], []] := by
    funext i; fin_cases i <;> simp [Net.innerCh, Net.ch, Net.type, sharedNet]
  have ho : workOrder sharedNet.innerCh true 0 = [0, 2, 3, 1] := by rw [hi]; decide
  rw [h3, ho]
  simp +decide [accStep, edgeCoef, coefs, sharedNet, realOf]

/-- The hypotheses of C31 hold of a network with sharing, and those of the theorem after `StoreInference` of a network with leaves of different values. -/
example : GoodSearch sharedNet 0 false ∧ Acyclic sharedNet.ch ∧ NonnegWeights sharedNet 0 ∧ IsValuation sharedNet 0 (fun _ => 1) ∧ (onesStore (Fin 5)).WF ∧
    (0 : Int) ≠ usedTicket (onesStore (Fin 5)) (-1) ∧ InferenceStored (onesStore (Fin 5)) 0 sharedNet 0 (fun _ => 1) :=
  ⟨Or.inl ⟨sharedNet_ok.2.2.2, rfl⟩, sharedNet_acyclic, sharedNet_ok.1, sharedNet_ok.2.1, onesStore_wf, by simp [usedTicket, onesStore], onesStore_stored _ _⟩

example : GoodSearch mixNet 0 true ∧ Acyclic mixNet.ch ∧ SiblingOrdered mixNet.ch 0 ∧ mixNet.ch 0 ≠ [] ∧ (∀ n cs w, mixNet.kind n = .sum cs w → cs ≠ []) ∧
    NonnegWeights mixNet 0 ∧ LeavesEval mixNet 0 (fun _ => none) := by
  refine ⟨Or.inr ?_, mixNet_acyclic, mixNet_siblings, by simp [mixNet, Net.ch], ?_, mixNet_weights.nonneg, discrete_eval mixNet_discrete (fun _ _ _ h => by cases h)⟩
  · intro u _ u' _ c hc hc' hl
    fin_cases u <;> fin_cases u' <;> simp [mixNet, Net.ch] at hc hc' <;> (try rcases hc with rfl | rfl) <;> (try rcases hc' with h | h) <;>
      first | rfl | (exfalso; revert h; decide)
  · intro n cs w hk
    fin_cases n <;> simp [mixNet] at hk
    rw [← hk.1]; simp

/-! ### C32 -/
section
variable {F : Type} [GoFloat F]

/-- `n` is a sum node below `S` and `c` its `j`-th child. -/
def SumEdge (N : Net ι F) (S n : ι) (j : Nat) (c : ι) : Prop := Reach N.ch S n ∧ ∃ cs w, N.kind n = .sum cs w ∧ cs[j]? = some c

private theorem slot_iff {N : Net ι F} {S n : ι} {l : Int} {c : ι} {isStack : Bool} :
    (n ∈ workOrder N.innerCh isStack S ∧ isSlot N n l c) ↔ ∃ j : Nat, l = j ∧ SumEdge N S n j c := by
  have hls := workOrder_lists N.innerCh isStack S
  unfold isSlot SumEdge
  constructor
  · rintro ⟨hn, ht, j, rfl, hj⟩
    refine ⟨j, rfl, innerReach_sub ((hls.2 n).1 hn), ?_⟩
    unfold Net.type at ht; unfold Net.ch at hj
    cases hk : N.kind n with
    | sum cs w => exact ⟨cs, w, rfl, by simpa [hk] using hj⟩
    | leaf l => simp [hk] at ht
    | product cs => simp [hk] at ht
  · rintro ⟨j, rfl, hr, cs, w, hk, hj⟩
    refine ⟨(hls.2 n).2 (innerReach_of hr (Or.inr ?_)), ?_, j, rfl, ?_⟩
    · simp [Net.type, hk]
    · simp [Net.type, hk]
    · simpa [Net.ch, hk] using hj

private theorem weights_core (N : Net ι F) (S : ι) (isStack : Bool) (st : Storer ι F) (hw : st.WF) (tk : Int) (ht : tk < 0 ∨ st.table tk ≠ none)
    (val : ι → ι → Option F → F) (step : Option Nat → Storer ι F → ι → Option (Storer ι F))
    (hstep : ∀ a, (newIfNeg tk st).2.table (usedTicket st tk) = some a → ∃ g : ι → Storer ι F → ι × Nat → Option (Storer ι F),
      (∀ st' s, OnlyAt a (newIfNeg tk st).2 st' → step (some a) st' s = if N.type s = .sum then (N.ch s).zipIdx.foldlM (g s) st' else some st') ∧
      ∀ s st' x, OnlyAt a (newIfNeg tk st).2 st' → g s st' x = st'.tableStore (some a) s x.2 (val s x.1 ((st'.heap a).entry s x.2))) :
    ∃ a st', (newIfNeg tk st).1 = usedTicket st tk ∧ (newIfNeg tk st).2.table (usedTicket st tk) = some a ∧
      work (fun st' s => (step (some a) st' s).map fun st'' => (st'', some (N.innerCh s))) isStack S (newIfNeg tk st).2 = some st' ∧ st'.WF ∧
      (∀ n j c, SumEdge N S n j c → st'.entry (usedTicket st tk) n j = some (val n c (if tk < 0 then none else st.entry tk n j))) ∧
      (∀ k, k ≠ usedTicket st tk → ∀ n i, st'.entry k n i = st.entry k n i) ∧
      (∀ n (l : Int), (∀ (j : Nat) c, l = j → ¬ SumEdge N S n j c) → st'.entry (usedTicket st tk) n l = if tk < 0 then none else st.entry tk n l) ∧
      (¬ tk < 0 → ∀ k, st'.table k = st.table k) := by
  obtain ⟨h1, a, h2, h3, h4, h5⟩ := dpStart_spec hw ht
  have e : newIfNeg tk st = dpStart st tk := rfl
  rw [e] at hstep ⊢
  obtain ⟨g, hs1, hs2⟩ := hstep a h2
  obtain ⟨st', g1, g2, g3, g4⟩ := writeLoop (N := N) (dpStart st tk).2 val (step (some a)) g hs1
    hs2 (workOrder N.innerCh isStack S) (dpStart st tk).2 (workOrder_lists N.innerCh isStack S).1 (OnlyAt.refl _ _)
  have hent : ∀ n l, ((dpStart st tk).2.heap a).entry n l = if tk < 0 then none else st.entry tk n l := by
    intro n l
    rw [← h5 n l, (OnlyAt.refl a (dpStart st tk).2).entry_at h2]
  refine ⟨a, st', h1, h2, ?_, g2.wf h3, ?_, ?_, ?_, ?_⟩
  · rw [work_static _ (step (some a)) N.innerCh (fun _ _ => rfl)]; exact g1
  · intro n j c hse
    obtain ⟨hn, hsl⟩ := (slot_iff (isStack := isStack)).2 ⟨j, rfl, hse⟩
    rw [g2.entry_at h2, g3 n hn _ c hsl, hent]
  · intro k hk n i
    rw [g2.entry h3 h2 k hk, h4 k hk]
  · intro n l hn
    rw [g2.entry_at h2, g4, hent]
    by_cases hin : n ∈ workOrder N.innerCh isStack S
    · right
      intro c hsl
      obtain ⟨j, hj, hse⟩ := slot_iff.1 ⟨hin, hsl⟩
      exact hn j c hj hse
    · exact Or.inl hin
  · intro hneg k
    have : (dpStart st tk).2 = st := by simp [dpStart, hneg]
    rw [← this]; exact congrFun g2.tables k

private theorem read_other {st : Storer ι F} (hw : st.WF) {tk : Int} (ht : tk < 0 ∨ st.table tk ≠ none) {a : Nat}
    (ha : (newIfNeg tk st).2.table (usedTicket st tk) = some a) {k : Int} (hk : k ≠ usedTicket st tk) {st' : Storer ι F} (h : OnlyAt a (newIfNeg tk st).2 st') (n : ι) (i : Int) :
    (st'.deref ((newIfNeg tk st).2.table k)).entry n i = st.entry k n i := by
  obtain ⟨h1, a', h2, h3, h4, h5⟩ := dpStart_spec hw ht
  have e : newIfNeg tk st = dpStart st tk := rfl
  rw [e] at h ha ⊢
  rw [h.deref (hd := (dpStart st tk).2.table k) (fun h' => hk (h3.inj _ _ _ h' ha)), deref_table, h4 k hk]

/-- C32, bit for bit and on every graph: `DeriveWeights` stores at position `j` of each sum node `n` below `S` the stored value of its `j`-th child plus the stored derivative of `n`
(missing entries read as 0), and changes nothing else. `tk` must not be the ticket of the values or of the derivatives. -/
theorem C32_deriveWeights (N : Net ι F) (S : ι) (isStack : Bool) (st : Storer ι F) (hw : st.WF) (tk dtk itk : Int) (ht : tk < 0 ∨ st.table tk ≠ none)
    (hd : dtk ≠ usedTicket st tk) (hi : itk ≠ usedTicket st tk) :
    ∃ st', N.deriveWeights S st tk dtk itk isStack = some (usedTicket st tk, st') ∧ st'.WF ∧
      (∀ n j c, SumEdge N S n j c → st'.entry (usedTicket st tk) n j = some (add ((st.entry itk c 0).getD (ofInt 0)) ((st.entry dtk n 0).getD (ofInt 0)))) ∧
      (∀ k, k ≠ usedTicket st tk → ∀ n i, st'.entry k n i = st.entry k n i) ∧
      (∀ n (l : Int), (∀ (j : Nat) c, l = j → ¬ SumEdge N S n j c) → st'.entry (usedTicket st tk) n l = if tk < 0 then none else st.entry tk n l) ∧
      (¬ tk < 0 → ∀ k, st'.table k = st.table k) := by
  obtain ⟨a, st', g1, g2, g3, g4, g5, g6, g7⟩ := weights_core N S isStack st hw tk ht
    (fun n c _ => add ((st.entry itk c 0).getD (ofInt 0)) ((st.entry dtk n 0).getD (ofInt 0)))
    (fun h st' s => N.deriveWStep h ((newIfNeg tk st).2.table dtk) ((newIfNeg tk st).2.table itk) st' s) (by
      intro a ha
      refine ⟨fun s st' ci => st'.tableStore (some a) s ci.2 (add (((st'.deref ((newIfNeg tk st).2.table itk)).entry ci.1 0).getD (ofInt 0)) ((st.entry dtk s 0).getD (ofInt 0))), ?_, ?_⟩
      · intro st' s h
        simp only [Net.deriveWStep, read_other hw ht ha hd h]
      · intro s st' x h
        simp only [read_other hw ht ha hi h])
  refine ⟨st', ?_, g4, g5, g6, g7⟩
  unfold Net.deriveWeights
  simp only [g1, g2]
  rw [g3]; rfl

/-- C32, the batch form, likewise: where the table already has an entry, the new number is combined with it by `LogSumExpPair`. -/
theorem C32_deriveWeightsBatch (N : Net ι F) (S : ι) (isStack : Bool) (st : Storer ι F) (hw : st.WF) (tk dtk itk : Int) (ht : tk < 0 ∨ st.table tk ≠ none)
    (hd : dtk ≠ usedTicket st tk) (hi : itk ≠ usedTicket st tk) :
    ∃ st', N.deriveWeightsBatch S st tk dtk itk isStack = some (usedTicket st tk, st') ∧ st'.WF ∧
      (∀ n j c, SumEdge N S n j c → st'.entry (usedTicket st tk) n j =
        some (match (if tk < 0 then none else st.entry tk n j) with
          | some dw => logSumExpPair (add ((st.entry itk c 0).getD (ofInt 0)) ((st.entry dtk n 0).getD (ofInt 0))) dw
          | none => add ((st.entry itk c 0).getD (ofInt 0)) ((st.entry dtk n 0).getD (ofInt 0)))) ∧
      (∀ k, k ≠ usedTicket st tk → ∀ n i, st'.entry k n i = st.entry k n i) ∧
      (∀ n (l : Int), (∀ (j : Nat) c, l = j → ¬ SumEdge N S n j c) → st'.entry (usedTicket st tk) n l = if tk < 0 then none else st.entry tk n l) ∧
      (¬ tk < 0 → ∀ k, st'.table k = st.table k) := by
  obtain ⟨a, st', g1, g2, g3, g4, g5, g6, g7⟩ := weights_core N S isStack st hw tk ht
    (fun n c o => match o with
      | some dw => logSumExpPair (add ((st.entry itk c 0).getD (ofInt 0)) ((st.entry dtk n 0).getD (ofInt 0))) dw
      | none => add ((st.entry itk c 0).getD (ofInt 0)) ((st.entry dtk n 0).getD (ofInt 0)))
    (fun h st' s => N.deriveWBStep h ((newIfNeg tk st).2.table dtk) ((newIfNeg tk st).2.table itk) st' s) (by
      intro a ha
      refine ⟨fun s st' ci => st'.tableStore (some a) s ci.2 (match (st'.deref (some a)).entry s ci.2 with
        | some dw => logSumExpPair (add (((st'.deref ((newIfNeg tk st).2.table itk)).entry ci.1 0).getD (ofInt 0)) ((st.entry dtk s 0).getD (ofInt 0))) dw
        | none => add (((st'.deref ((newIfNeg tk st).2.table itk)).entry ci.1 0).getD (ofInt 0)) ((st.entry dtk s 0).getD (ofInt 0))), ?_, ?_⟩
      · intro st' s h
        simp only [Net.deriveWBStep, read_other hw ht ha hd h]
        rfl
      · intro s st' x h
        simp only [read_other hw ht ha hi h]; rfl)
  refine ⟨st', ?_, g4, g5, g6, g7⟩
  unfold Net.deriveWeightsBatch
  simp only [g1, g2]
  rw [g3]; rfl

end

/-- The table of ticket `dtk` holds the logarithms of the partial derivatives of `S`. -/
def DerivativesStored (st : Storer ι XR) (dtk : Int) (N : Net ι XR) (S : ι) (p : ι → ℝ) : Prop :=
  ∀ n, Reach N.ch S n → ∃ e, st.entry dtk n 0 = some e ∧ IsLogProb e ∧ IsPartial N S p n (unlog e)

theorem weight_partial {N : Net ι XR} {S : ι} {p : ι → ℝ} (hac : Acyclic N.ch) (hwt : NonnegWeights N S) (hp : IsValuation N S p) {st : Storer ι XR} {dtk itk : Int}
    (hinf : InferenceStored st itk N S p) (hder : DerivativesStored st dtk N S p) {n : ι} {j : Nat} {c : ι} (h : SumEdge N S n j c) :
    IsLogProb (GoFloat.add ((st.entry itk c 0).getD (ofInt 0)) ((st.entry dtk n 0).getD (ofInt 0))) ∧ ∃ a : ℝ, (N.weights n)[j]? = some (.fin a) ∧
      IsWeightPartial N S p n j a (unlog (GoFloat.add ((st.entry itk c 0).getD (ofInt 0)) ((st.entry dtk n 0).getD (ofInt 0)))) := by
  obtain ⟨hr, cs, w, hk, hj⟩ := h
  obtain ⟨_, r, rfl, hlen, _⟩ := hwt n hr cs w hk
  obtain ⟨e, he1, he2, he3⟩ := hder n hr
  obtain ⟨x, hx1, hx2, hx3⟩ := hinf c (reach_step hr (by simp [Net.ch, hk]; exact List.mem_of_getElem? hj))
  rw [he1, hx1]
  simp only [Option.getD_some]
  have ha := add_spec hx2 he2
  have hjr : j < r.length := by rw [hlen]; exact (List.getElem?_eq_some_iff.1 hj).1
  refine ⟨ha.1, r[j], by simp [Net.weights, hk, hjr], ?_⟩
  rw [show unlog (GoFloat.add x e) = unlog x * unlog e from ha.2, hx3, mul_comm]
  exact isWeightPartial_of_isPartial hac hp hr he3 hk hlen hj (List.getElem?_eq_getElem hjr)

/-- C32, meaning: if the tickets hold the logarithms of the values and of the derivatives, `DeriveWeights` stores for each sum node and child position the logarithm of the partial derivative of the value
of `S` with respect to that weight. -/
theorem C32_meaning (N : Net ι XR) (S : ι) (p : ι → ℝ) (hac : Acyclic N.ch) (hwt : NonnegWeights N S) (hp : IsValuation N S p) (isStack : Bool)
    (st : Storer ι XR) (hw : st.WF) (tk dtk itk : Int) (ht : tk < 0 ∨ st.table tk ≠ none) (hd : dtk ≠ usedTicket st tk) (hi : itk ≠ usedTicket st tk)
    (hinf : InferenceStored st itk N S p) (hder : DerivativesStored st dtk N S p) :
    ∃ st', N.deriveWeights S st tk dtk itk isStack = some (usedTicket st tk, st') ∧
      ∀ n j c, SumEdge N S n j c → ∃ e a, st'.entry (usedTicket st tk) n j = some e ∧ IsLogProb e ∧ (N.weights n)[j]? = some (.fin a) ∧ IsWeightPartial N S p n j a (unlog e) := by
  obtain ⟨st', h1, _, h2, _⟩ := C32_deriveWeights N S isStack st hw tk dtk itk ht hd hi
  refine ⟨st', h1, ?_⟩
  intro n j c h
  obtain ⟨g1, a, g2, g3⟩ := weight_partial hac hwt hp hinf hder h
  exact ⟨_, a, h2 n j c h, g1, g2, g3⟩

/-- C32, meaning of the batch form: the derivative is added to what the table holds (nothing counts as 0). -/
theorem C32_meaning_batch (N : Net ι XR) (S : ι) (p : ι → ℝ) (hac : Acyclic N.ch) (hwt : NonnegWeights N S) (hp : IsValuation N S p) (isStack : Bool)
    (st : Storer ι XR) (hw : st.WF) (tk dtk itk : Int) (ht : tk < 0 ∨ st.table tk ≠ none) (hd : dtk ≠ usedTicket st tk) (hi : itk ≠ usedTicket st tk)
    (hinf : InferenceStored st itk N S p) (hder : DerivativesStored st dtk N S p) (hold : ∀ n i x, st.entry tk n i = some x → IsLogProb x) :
    ∃ st', N.deriveWeightsBatch S st tk dtk itk isStack = some (usedTicket st tk, st') ∧
      ∀ n j c, SumEdge N S n j c → ∃ e a d, st'.entry (usedTicket st tk) n j = some e ∧ IsLogProb e ∧ (N.weights n)[j]? = some (.fin a) ∧ IsWeightPartial N S p n j a d ∧
        unlog e = d + (((if tk < 0 then none else st.entry tk n j).map unlog).getD 0) := by
  obtain ⟨st', h1, _, h2, _⟩ := C32_deriveWeightsBatch N S isStack st hw tk dtk itk ht hd hi
  refine ⟨st', h1, ?_⟩
  intro n j c h
  obtain ⟨g1, a, g2, g3⟩ := weight_partial hac hwt hp hinf hder h
  have h3 := h2 n j c h
  cases ho : (if tk < 0 then none else st.entry tk n j) with
  | none =>
    rw [ho] at h3
    exact ⟨_, a, _, h3, g1, g2, g3, by simp⟩
  | some dw =>
    rw [ho] at h3
    have hdw : IsLogProb dw := by
      split at ho
      · cases ho
      · exact hold n j dw ho
    have hs := logSumExpPair_spec g1 hdw
    exact ⟨_, a, _, h3, hs.1, g2, g3, by simpa using hs.2⟩

/-- C32 after `StoreInference` and `DeriveSPN`, part (missing: as in C31): the three calls with new tickets leave the logarithms of the weight derivatives at the probabilities of the nodes. -/
theorem C32_after_deriveSPN_partial (N : Net ι XR) (S : ι) (I : VarSet) (hac : Acyclic N.ch) (hso : SiblingOrdered N.ch S) (hS : N.ch S ≠ [])
    (hne : ∀ n cs w, N.kind n = .sum cs w → cs ≠ []) (hwt : NonnegWeights N S) (hl : LeavesEval N S I) (isStack : Bool) (hord : GoodSearch N S isStack)
    (ops : List (StOp ι XR)) (c : Client ι XR) (outs : List (StOut XR)) (hr : Client.new.run ops = some (c, outs)) :
    ∃ st1 st2 st3, N.storeInference S I (-1) c.s = some (some (S, c.s.tickets), st1) ∧ N.deriveSPN S st1 (-1) c.s.tickets isStack = some (c.s.tickets + 1, st2) ∧
      N.deriveWeights S st2 (-1) (c.s.tickets + 1) c.s.tickets isStack = some (c.s.tickets + 2, st3) ∧
      ∀ n j d, SumEdge N S n j d → ∃ e a, st3.entry (c.s.tickets + 2) n j = some e ∧ IsLogProb e ∧ (N.weights n)[j]? = some (.fin a) ∧
        IsWeightPartial N S (N.prob I) n j a (unlog e) := by
  obtain ⟨st1, st2, h1, h2, h3, h4, h5, h6, h7⟩ := C31_after_storeInference_partial N S I hac hso hS hne hwt hl isStack hord ops c outs hr
  have hu : usedTicket st2 (-1) = c.s.tickets + 2 := by simp [usedTicket, h4]
  obtain ⟨st3, g1, g2⟩ := C32_meaning N S (N.prob I) hac hwt (prob_isValuation hac hwt hl) isStack st2 h3 (-1) (c.s.tickets + 1) c.s.tickets (Or.inl (by omega))
    (by rw [hu]; omega) (by rw [hu]; omega) (by
      intro n hn
      obtain ⟨⟨x, hx, hx1, hx2⟩, _⟩ := Net.prob_spec hac hwt hl hn
      exact ⟨x, by rw [h5 n hn, hx], hx1, hx2⟩) h6
  rw [hu] at g1 g2
  exact ⟨st1, st2, st3, h1, h2, g1, g2⟩

/-- The hypotheses of `C32_meaning` hold of a network with sharing: of the storage `DeriveSPN` leaves. -/
example : ∃ st : Storer (Fin 5) XR, st.WF ∧ (1 : Int) ≠ usedTicket st (-1) ∧ (0 : Int) ≠ usedTicket st (-1) ∧ InferenceStored st 0 sharedNet 0 (fun _ => 1) ∧
    DerivativesStored st 1 sharedNet 0 (fun _ => 1) ∧ SumEdge sharedNet 0 0 1 2 := by
  have hu : usedTicket (onesStore (Fin 5)) (-1) = 1 := by simp [usedTicket, onesStore]
  obtain ⟨st, h1, h2, h3, h4, h5, _⟩ := C31_deriveSPN_partial sharedNet 0 (fun _ => 1) sharedNet_acyclic sharedNet_ok.1 sharedNet_ok.2.1 false
    (Or.inl ⟨sharedNet_ok.2.2.2, rfl⟩) (onesStore (Fin 5)) onesStore_wf (-1) 0 (Or.inl (by omega)) (by rw [hu]; omega) (by omega) (onesStore_stored _ _)
  rw [hu] at h4 h5
  have h3' : st.tickets = 2 := by rw [h3]; simp [onesStore]
  refine ⟨st, h2, by simp [usedTicket, h3'], by simp [usedTicket, h3'], ?_, h4, Relation.ReflTransGen.refl, _, _, rfl, rfl⟩
  intro n hn
  rw [h5 0 (by omega)]
  exact onesStore_stored _ _ n hn

/-! ### C33 -/
section
variable {F : Type} [GoFloat F]

theorem applyLoop_spec (f : ι → F) : ∀ (ch : List ι) (k : Nat) (w : List F), (∀ i, i < ch.length → i + k < w.length) →
    ∃ w', (ch.zipIdx k).foldlM (fun (w : List F) (ci : ι × Nat) => (w[ci.2]?).map fun x => w.set ci.2 (add x (f ci.1))) w = some w' ∧ w'.length = w.length ∧
      (∀ (i : Nat) (c : ι) (x : F), ch[i]? = some c → w[i + k]? = some x → w'[i + k]? = some (add x (f c))) ∧ (∀ j, (∀ i, i < ch.length → j ≠ i + k) → w'[j]? = w[j]?) := by
  intro ch
  induction ch with
  | nil => intro k w _; exact ⟨w, rfl, rfl, by simp, by simp⟩
  | cons c ch ih =>
    intro k w hl
    have hk : k < w.length := by simpa using hl 0 (by simp)
    obtain ⟨w', h1, h2, h3, h4⟩ := ih (k + 1) (w.set k (add w[k] (f c))) (by
      intro i hi; have := hl (i + 1) (by simpa using hi); simp; omega)
    refine ⟨w', ?_, by simpa using h2, ?_, ?_⟩
    · simp only [List.zipIdx_cons, List.foldlM_cons, List.getElem?_eq_getElem hk, Option.map_some]; exact h1
    · intro i d x hd hx
      cases i with
      | zero =>
        simp at hd hx; subst hd
        rw [h4 _ (fun i _ => by omega)]
        obtain ⟨_, rfl⟩ := List.getElem?_eq_some_iff.1 hx
        simp [hk]
      | succ i =>
        simp at hd
        rw [show i + 1 + k = i + (k + 1) by omega] at hx ⊢
        exact h3 i d x hd (by rw [List.getElem?_set_ne (by omega)]; exact hx)
    · intro j hj
      rw [h4 j (fun i hi => by have := hj (i + 1) (by simpa using hi); omega), List.getElem?_set_ne (by have := hj 0 (by simp); omega)]

theorem applyFold_spec {N : Net ι F} (eta : F) (dt it : Table ι F) (norm : Bool) : ∀ (L : List ι) (W : ι → List F), L.Nodup →
    (∀ n ∈ L, N.type n = .sum → (N.ch n).length ≤ (W n).length) →
    ∃ W', L.foldlM (N.applyStep eta dt it norm) W = some W' ∧
      (∀ n, (n ∉ L ∨ N.type n ≠ .sum) → W' n = W n) ∧
      (∀ n ∈ L, N.type n = .sum → ∃ w, W' n = (if norm then learnNormalize w else w) ∧ w.length = (W n).length ∧
        (∀ (i : Nat) (c : ι) (x : F), (N.ch n)[i]? = some c → (W n)[i]? = some x →
          w[i]? = some (add x (mul eta (exp (add ((it.entry c 0).getD (ofInt 0)) ((dt.entry n 0).getD (ofInt 0))))))) ∧
        (∀ i : Nat, (N.ch n).length ≤ i → w[i]? = (W n)[i]?)) := by
  intro L
  induction L with
  | nil => intro W _ _; exact ⟨W, rfl, fun _ _ => rfl, by simp⟩
  | cons s L ih =>
    intro W hnd hlen
    obtain ⟨hs, hnd⟩ := List.nodup_cons.1 hnd
    by_cases ht : N.type s = .sum
    · obtain ⟨w, h1, h2, h3, h4⟩ := applyLoop_spec (F := F) (fun c => mul eta (exp (add ((it.entry c 0).getD (ofInt 0)) ((dt.entry s 0).getD (ofInt 0))))) (N.ch s) 0 (W s)
        (by intro i hi; have := hlen s (by simp) ht; omega)
      have hstep : N.applyStep eta dt it norm W s = some (Function.update W s (if norm then learnNormalize w else w)) := by
        simp only [Net.applyStep, ht, if_true, applyLoop]
        rw [h1]; rfl
      obtain ⟨W', g1, g2, g3⟩ := ih (Function.update W s (if norm then learnNormalize w else w)) hnd (by
        intro n hn hts
        rw [Function.update_of_ne (by rintro rfl; exact hs hn)]
        exact hlen n (by simp [hn]) hts)
      refine ⟨W', by rw [List.foldlM_cons, hstep]; exact g1, ?_, ?_⟩
      · intro n hn
        rw [g2 n (hn.imp_left (fun h h' => h (by simp [h'])))]
        rw [Function.update_of_ne]
        rintro rfl
        rcases hn with h | h
        · exact h (by simp)
        · exact h ht
      · intro n hn hts
        by_cases hns : n = s
        · subst hns
          refine ⟨w, ?_, h2, ?_, ?_⟩
          · rw [g2 n (Or.inl hs), Function.update_self]
          · intro i c x hc hx; simpa using h3 i c x hc (by simpa using hx)
          · intro i hi; exact h4 i (fun j hj => by omega)
        · obtain ⟨w', q1, q2, q3, q4⟩ := g3 n (by simpa [hns] using hn) hts
          rw [Function.update_of_ne hns] at q2 q3 q4
          exact ⟨w', q1, q2, q3, q4⟩
    · have hstep : N.applyStep eta dt it norm W s = some W := by simp [Net.applyStep, ht]
      obtain ⟨W', g1, g2, g3⟩ := ih W hnd (fun n hn => hlen n (by simp [hn]))
      refine ⟨W', by rw [List.foldlM_cons, hstep]; exact g1, ?_, ?_⟩
      · intro n hn; exact g2 n (hn.imp_left (fun h h' => h (by simp [h'])))
      · intro n hn hts
        rcases List.mem_cons.1 hn with rfl | hn'
        · exact absurd hts ht
        · exact g3 n hn' hts

/-- C33, bit for bit and on every graph: `DeriveApplyWeights` adds to weight `i` of every sum node `n` below `S` the learning rate times the exponential of the stored value of the child
plus the stored derivative of `n`, once, and then normalises the weights if asked; weights without a child and all other nodes stay as they are.
The only condition is that no sum node below `S` has more children than weights (Go panics otherwise). -/
theorem C33_apply (N : Net ι F) (S : ι) (eta : F) (st : Storer ι F) (dtk itk : Int) (isStack norm : Bool)
    (hlen : ∀ n, Reach N.ch S n → ∀ cs w, N.kind n = .sum cs w → cs.length ≤ w.length) :
    ∃ N' : Net ι F, N.deriveApplyWeights S eta st dtk itk isStack norm = some N' ∧
      (∀ n, (¬ Reach N.ch S n ∨ N.type n ≠ .sum) → N'.kind n = N.kind n) ∧
      (∀ n, Reach N.ch S n → ∀ cs w, N.kind n = .sum cs w → ∃ w' : List F, N'.kind n = .sum cs (if norm then learnNormalize w' else w') ∧ w'.length = w.length ∧
        (∀ (i : Nat) (c : ι) (x : F), cs[i]? = some c → w[i]? = some x →
          w'[i]? = some (add x (mul eta (exp (add ((st.entry itk c 0).getD (ofInt 0)) ((st.entry dtk n 0).getD (ofInt 0))))))) ∧
        (∀ i : Nat, cs.length ≤ i → w'[i]? = w[i]?)) := by
  have hls := workOrder_lists N.innerCh isStack S
  obtain ⟨W', h1, h2, h3⟩ := applyFold_spec (N := N) eta (st.deref (st.table dtk)) (st.deref (st.table itk)) norm (workOrder N.innerCh isStack S) N.weights hls.1 (by
    intro n hn hts
    have hr := innerReach_sub ((hls.2 n).1 hn)
    unfold Net.type at hts
    cases hk : N.kind n with
    | sum cs w => simpa [Net.ch, Net.weights, hk] using hlen n hr cs w hk
    | leaf l => simp [hk] at hts
    | product cs => simp [hk] at hts)
  refine ⟨N.withWeights W', ?_, ?_, ?_⟩
  · unfold Net.deriveApplyWeights
    rw [work_static _ (N.applyStep eta (st.deref (st.table dtk)) (st.deref (st.table itk)) norm) N.innerCh (fun _ _ => rfl), h1]; rfl
  · intro n hn
    simp only [Net.withWeights]
    cases hk : N.kind n with
    | sum cs w =>
      have : ¬ Reach N.ch S n := hn.resolve_right (by simp [Net.type, hk])
      simp only
      rw [h2 n (Or.inl (fun h => this (innerReach_sub ((hls.2 n).1 h))))]
      simp [Net.weights, hk]
    | leaf l => rfl
    | product cs => rfl
  · intro n hr cs w hk
    have hts : N.type n = .sum := by simp [Net.type, hk]
    obtain ⟨w', g1, g2, g3, g4⟩ := h3 n ((hls.2 n).2 (innerReach_of hr (Or.inr (by simp [hts])))) hts
    have hc : N.ch n = cs := by simp [Net.ch, hk]
    have hwt : N.weights n = w := by simp [Net.weights, hk]
    rw [hwt] at g2; rw [hc, hwt] at g3 g4
    refine ⟨w', by simp [Net.withWeights, hk, g1], g2, ?_, g4⟩
    intro i c x hi hx
    rw [g3 i c x hi hx, deref_table, deref_table]

/-- ... and if some sum node below `S` has more children than weights the call panics. -/
theorem C33_apply_panics (N : Net ι F) (S : ι) (eta : F) (st : Storer ι F) (dtk itk : Int) (isStack norm : Bool) (n : ι) (hn : Reach N.ch S n) (cs : List ι) (w : List F)
    (hk : N.kind n = .sum cs w) (hlen : w.length < cs.length) : N.deriveApplyWeights S eta st dtk itk isStack norm = none := by
  have hls := workOrder_lists N.innerCh isStack S
  have hts : N.type n = .sum := by simp [Net.type, hk]
  have hmem := (hls.2 n).2 (innerReach_of hn (Or.inr (by simp [hts])))
  -- a slice that is too short makes the inner loop panic
  have hloop : ∀ (f : ι → F) (ch : List ι) (k : Nat) (w : List F), w.length < ch.length + k → k ≤ w.length →
      (ch.zipIdx k).foldlM (fun (w : List F) (ci : ι × Nat) => (w[ci.2]?).map fun x => w.set ci.2 (add x (f ci.1))) w = none := by
    intro f ch
    induction ch with
    | nil => intro k w h1 h2; simp at h1; omega
    | cons c ch ih =>
      intro k w h1 h2
      simp only [List.zipIdx_cons, List.foldlM_cons]
      by_cases hk : k < w.length
      · simp only [List.getElem?_eq_getElem hk, Option.map_some]
        exact ih (k + 1) _ (by simp at h1 ⊢; omega) (by simp; omega)
      · rw [List.getElem?_eq_none (by omega)]; rfl
  have hstep : ∀ W : ι → List F, W n = w → N.applyStep eta (st.deref (st.table dtk)) (st.deref (st.table itk)) norm W n = none := by
    intro W hW
    simp only [Net.applyStep, hts, if_true, applyLoop, hW, show N.ch n = cs by simp [Net.ch, hk]]
    rw [hloop (fun c => mul eta (exp (add (((st.deref (st.table itk)).entry c 0).getD (ofInt 0)) (((st.deref (st.table dtk)).entry n 0).getD (ofInt 0))))) cs 0 w (by omega) (by omega)]; rfl
  have key : ∀ (L : List ι) (W : ι → List F), L.Nodup → n ∈ L → W n = w → L.foldlM (N.applyStep eta (st.deref (st.table dtk)) (st.deref (st.table itk)) norm) W = none := by
    intro L
    induction L with
    | nil => intro W _ h; simp at h
    | cons s L ih =>
      intro W hnd hin hW
      obtain ⟨hs, hnd⟩ := List.nodup_cons.1 hnd
      rw [List.foldlM_cons]
      by_cases hns : n = s
      · subst hns; rw [hstep W hW]; rfl
      · cases hst : N.applyStep eta (st.deref (st.table dtk)) (st.deref (st.table itk)) norm W s with
        | none => rfl
        | some W' =>
          apply ih W' hnd (by simpa [hns] using hin)
          rw [← hW]
          unfold Net.applyStep at hst
          split at hst
          · simp only [Option.map_eq_some_iff] at hst
            obtain ⟨v, _, rfl⟩ := hst
            exact Function.update_of_ne hns _ _
          · simp at hst; rw [hst]
  unfold Net.deriveApplyWeights
  rw [work_static _ (N.applyStep eta (st.deref (st.table dtk)) (st.deref (st.table itk)) norm) N.innerCh (fun _ _ => rfl),
    key _ _ hls.1 hmem (by simp [Net.weights, hk])]; rfl

example (l : Leaf F) (a b : F) : ∀ n, Reach (diamondNet [a, b] l).ch 0 n → ∀ cs w, (diamondNet [a, b] l).kind n = .sum cs w → cs.length ≤ w.length := by
  intro n _ cs w h
  fin_cases n <;> simp [diamondNet] at h
  rw [← h.1, ← h.2]; simp

end

/-- C33, meaning: with the logarithms of values and derivatives stored, each weight moves by the learning rate times the partial derivative of the value of `S` with respect to it. -/
theorem C33_meaning (N : Net ι XR) (S : ι) (p : ι → ℝ) (hac : Acyclic N.ch) (hwt : NonnegWeights N S) (hp : IsValuation N S p) (isStack : Bool) (eta : ℝ)
    (st : Storer ι XR) (dtk itk : Int) (hinf : InferenceStored st itk N S p) (hder : DerivativesStored st dtk N S p) :
    ∃ N' : Net ι XR, N.deriveApplyWeights S (.fin eta) st dtk itk isStack false = some N' ∧
      ∀ n j c, SumEdge N S n j c → ∃ a d, (N.weights n)[j]? = some (.fin a) ∧ IsWeightPartial N S p n j a d ∧ (N'.weights n)[j]? = some (.fin (a + eta * d)) := by
  obtain ⟨N', h1, _, h2⟩ := C33_apply N S (.fin eta) st dtk itk isStack false (by
    intro n hr cs w hk
    obtain ⟨_, r, rfl, hlen, _⟩ := hwt n hr cs w hk
    simp [hlen])
  refine ⟨N', h1, ?_⟩
  intro n j c h
  obtain ⟨g1, a, g2, g3⟩ := weight_partial hac hwt hp hinf hder h
  obtain ⟨hr, cs, w, hk, hj⟩ := h
  obtain ⟨w', q1, _, q3, _⟩ := h2 n hr cs w hk
  have hw : N.weights n = w := by simp [Net.weights, hk]
  refine ⟨a, _, g2, g3, ?_⟩
  have := q3 j c (.fin a) hj (by rw [← hw]; exact g2)
  rw [show N'.weights n = w' by simp [Net.weights, q1], this]
  have he : ∀ x : XR, IsLogProb x → XR.exp x = .fin (unlog x) := by
    intro x hx
    rcases IsLogProb.cases hx with rfl | ⟨r, rfl⟩ <;> simp [XR.exp, unlog]
  simp only [XR.g_exp, he _ g1]
  simp

end Gospn
