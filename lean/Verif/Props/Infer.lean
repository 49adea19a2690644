import Verif.Proofs.ArgMax
import Verif.Proofs.Log
import Verif.Props.Topo
/-!
Properties C03, C04, C05 and C07: dynamic programming over the network against the recursive methods.
Everything except the counterexamples holds for arbitrary floating-point operations (`GoFloat`, no laws), hence bit for bit.
-/
set_option linter.unusedSectionVars false
namespace Gospn
open Spec GoFloat

variable {ι F : Type} [GoFloat F] [DecidableEq ι] [Fintype ι]

/-! ### The recursive methods -/

/-- On a network without cycles the modelled `Value`, `Max` and `ArgMax` satisfy the recursive equations that the Go methods are. -/
theorem methods_unfold (N : Net ι F) (hac : Acyclic N.ch) (I : VarSet) (n : ι) :
    N.value I n = N.valueStep I (N.value I) n ∧ N.max I n = N.maxStep I (N.max I) n ∧
    N.argMax I n = N.argMaxStep I (N.max I) (N.argMax I) n :=
  ⟨Net.value_unfold hac I n, Net.max_unfold hac I n, Net.argMax_unfold hac I n⟩

/-! ### C03 -/

/-- C03, part: for a root with children in a network without cycles where no child is reachable from a sibling listed after it,
`Inference(S, I)` and `S.Value(I)` are the same: the same number if they return, and both panic otherwise. Missing: leaf roots
(`C03_leaf_root_refuted`) and networks in which `TopSortTarjan` does not list children first (`C03_order_refuted`). -/
theorem C03_inference_eq_value_partial (N : Net ι F) (S : ι) (I : VarSet) (hac : Acyclic N.ch) (hso : SiblingOrdered N.ch S)
    (hS : N.ch S ≠ []) : N.inference S I = N.value I S := by
  unfold Net.inference
  rw [if_neg (by simpa using hS)]
  exact Net.infer_fold hac (Net.order_childrenFirst hac hso) (fun _ _ _ => rfl)

/-- A sum over two products that share a leaf. -/
def diamondNet (w : List F) (l : Leaf F) : Net (Fin 4) F := ⟨![.sum [1, 2] w, .product [3], .product [3], .leaf l]⟩

theorem diamondNet_ch (w : List F) (l : Leaf F) : (diamondNet w l).ch = diamond := by
  funext i; fin_cases i <;> rfl

theorem diamondNet_ok (w : List F) (l : Leaf F) : Acyclic (diamondNet w l).ch ∧ SiblingOrdered (diamondNet w l).ch 0 := by
  rw [diamondNet_ch]; exact ⟨diamond_acyclic, diamond_reduced.siblingOrdered⟩

example (w : List F) (l : Leaf F) : Acyclic (diamondNet w l).ch ∧ SiblingOrdered (diamondNet w l).ch 0 ∧ (diamondNet w l).ch 0 ≠ [] :=
  ⟨(diamondNet_ok w l).1, (diamondNet_ok w l).2, by rw [diamondNet_ch]; decide⟩

/-- C03 is false for a leaf as root: `Inference` returns 0 (probability one) whatever the leaf and the evidence. -/
theorem C03_leaf_root_refuted :
    ∃ (N : Net Unit XR) (I : VarSet), Acyclic N.ch ∧ N.value I () = some .ninf ∧ N.inference () I = some (.fin 0) := by
  refine ⟨⟨fun _ => .leaf (.indicator 0 1)⟩, fun _ => some 0, ⟨fun _ => 0, by simp [Net.ch]⟩, ?_, ?_⟩
  · simp [Net.value, dagRec, fuelRec, Net.valueStep, Leaf.value]
  · simp [Net.inference, Net.ch]

/-- A sum node 0 over a leaf 1 and a product 2 whose only child is that leaf. -/
noncomputable def skipNet : Net (Fin 3) XR := ⟨![.sum [1, 2] [.fin (1 / 2), .fin (1 / 2)], .leaf (.indicator 0 1), .product [1]]⟩

theorem skipNet_ch : skipNet.ch = skipDag := by funext i; fin_cases i <;> rfl

theorem skipNet_order : skipNet.order 0 = [2, 1, 0] := by
  rw [Net.order, skipNet_ch]; decide

/-- C03 is false for networks with an edge bridged by a longer path: evidence that contradicts the only leaf has probability zero,
`Inference` gives it probability one half, because node 2 is computed before its child. -/
theorem C03_order_refuted :
    ∃ (N : Net (Fin 3) XR) (I : VarSet), Acyclic N.ch ∧ N.ch 0 ≠ [] ∧ N.value I 0 = some .ninf ∧
      N.inference 0 I = some (.fin (Real.log (1 / 2))) := by
  refine ⟨skipNet, fun _ => some 0, by rw [skipNet_ch]; exact skipDag_acyclic, by rw [skipNet_ch]; decide, ?_, ?_⟩
  · have hac : Acyclic skipNet.ch := by rw [skipNet_ch]; exact skipDag_acyclic
    have h1 : skipNet.value (fun _ => some 0) 1 = some .ninf := by
      rw [Net.value_unfold hac]; simp [Net.valueStep, skipNet, Leaf.value]
    have h2 : skipNet.value (fun _ => some 0) 2 = some .ninf := by
      rw [Net.value_unfold hac]
      have : skipNet.kind 2 = .product [1] := rfl
      simp [Net.valueStep, this, h1, prodCompute]
    rw [Net.value_unfold hac]
    have : skipNet.kind 0 = .sum [1, 2] [.fin (1 / 2), .fin (1 / 2)] := rfl
    have hl : XR.log (.fin (1 / 2)) = .fin (Real.log (1 / 2)) := XR.log_pos (by norm_num)
    simp only [Net.valueStep, this, List.mapM_cons, List.mapM_nil, h1, h2]
    simp [weighted, logSumExp, XR.lt, XR.log]
  · have hl : XR.log (.fin (1 / 2)) = .fin (Real.log (1 / 2)) := XR.log_pos (by norm_num)
    unfold Net.inference
    rw [if_neg (by rw [skipNet_ch]; decide), skipNet_order]
    have k0 : skipNet.kind 0 = .sum [1, 2] [.fin (1 / 2), .fin (1 / 2)] := rfl
    have k1 : skipNet.kind 1 = .leaf (.indicator 0 1) := rfl
    have k2 : skipNet.kind 2 = .product [1] := rfl
    simp only [List.foldlM_cons, List.foldlM_nil, Net.inferStep, k0, k1, k2]
    simp [prodCompute, Leaf.value, weighted, logSumExp, XR.lt, XR.log]

/-! ### C05 -/

theorem Leaf.value_congr (l : Leaf F) (I J : VarSet)
    (h : match l with | .indicator v _ => I v = J v | .multinomial _ v _ _ _ => I v = J v | .gaussian v _ _ => I v = J v) :
    l.value I = l.value J := by
  cases l <;> simp only at h <;> simp [Leaf.value, h]

/-- The variable a leaf looks at is the first (usually the only) one of its scope. True of every constructor except
`NewScopedCountingMultinomial`, which takes an arbitrary scope. -/
def Leaf.ScopeIsVar : Leaf F → Prop
  | .multinomial sc varid _ _ _ => sc.head? = some varid
  | _ => True

/-- C05, part: under the conditions of C03, and if the variable of each leaf is the first of its scope, `InferenceY(S, I, Y, y)` is the value of `S` on
`I` with `Y` set to `y` (and panics exactly if that does). -/
theorem C05_inferenceY_partial (N : Net ι F) (S : ι) (I : VarSet) (Y y : Int) (hac : Acyclic N.ch) (hso : SiblingOrdered N.ch S)
    (hS : N.ch S ≠ []) (hsc : ∀ n l, N.kind n = .leaf l → l.ScopeIsVar) :
    N.inferenceY S I Y y = N.value (Function.update I Y (some y)) S := by
  unfold Net.inferenceY
  rw [if_neg (by simpa using hS)]
  apply Net.infer_fold hac (Net.order_childrenFirst hac hso)
  intro n l hk
  have h := hsc n l hk
  cases l with
  | indicator v x =>
    simp only [Leaf.sc]
    split
    · rename_i hv; apply Leaf.value_congr; simp [VarSet.single, hv]
    · rename_i hv; apply Leaf.value_congr; simp [hv]
  | gaussian v m s =>
    simp only [Leaf.sc]
    split
    · rename_i hv; apply Leaf.value_congr; simp [VarSet.single, hv]
    · rename_i hv; apply Leaf.value_congr; simp [hv]
  | multinomial sc v pr mi mv =>
    simp only [Leaf.ScopeIsVar] at h
    cases sc with
    | nil => simp at h
    | cons a sc =>
      simp at h; subst h
      simp only [Leaf.sc]
      split
      · rename_i hv; apply Leaf.value_congr; simp [VarSet.single, hv]
      · rename_i hv; apply Leaf.value_congr; simp [hv]

example (w : List F) (pr : List F) (m : F) : ∀ n l, (diamondNet w (.multinomial [5] 5 pr 0 m)).kind n = .leaf l → l.ScopeIsVar := by
  intro n l h
  fin_cases n <;> simp [diamondNet] at h
  subst h; simp [Leaf.ScopeIsVar]

/-- C05 is false for a leaf as root, for the same reason as C03. -/
theorem C05_leaf_root_refuted :
    ∃ (N : Net Unit XR) (I : VarSet), Acyclic N.ch ∧ N.value (Function.update I 0 (some 0)) () = some .ninf ∧
      N.inferenceY () I 0 0 = some (.fin 0) := by
  refine ⟨⟨fun _ => .leaf (.indicator 0 1)⟩, fun _ => none, ⟨fun _ => 0, by simp [Net.ch]⟩, ?_, ?_⟩
  · simp [Net.value, dagRec, fuelRec, Net.valueStep, Leaf.value]
  · simp [Net.inferenceY, Net.ch]

/-! ### C04 -/

/-- `StoreInference` on a well-formed storage. -/
theorem storeInference_core (N : Net ι F) (S : ι) (I : VarSet) (hac : Acyclic N.ch) (hso : SiblingOrdered N.ch S) (hS : N.ch S ≠ [])
    (hne : ∀ n cs w, N.kind n = .sum cs w → cs ≠ []) (st : Storer ι F) (hw : st.WF)
    (tk : Int) (ht : tk < 0 ∨ st.table tk ≠ none) :
    (N.value I S = none ∧ N.storeInference S I tk st = none) ∨
    ∃ st', N.storeInference S I tk st = some (some (S, usedTicket st tk), st') ∧
      (∀ n, Reach N.ch S n → st'.entry (usedTicket st tk) n 0 = N.value I n ∧ N.value I n ≠ none) ∧
      (∀ k, k ≠ usedTicket st tk → ∀ n i, st'.entry k n i = st.entry k n i) ∧
      (∀ n i, (¬ Reach N.ch S n ∨ i ≠ 0) → st'.entry (usedTicket st tk) n i = if tk < 0 then none else st.entry tk n i) := by
  obtain ⟨h1, a, h2, h3, h4, h5⟩ := dpStart_spec hw ht
  have hol := N.order_lists S
  have hun : N.storeInference S I tk st = match N.storeInfLoop I ((dpStart st tk).2.table (dpStart st tk).1) (dpStart st tk).2 (N.order S) with
    | none => none
    | some (st', false) => some (none, st')
    | some (st', true) => some (some (S, (dpStart st tk).1), st') := by
    unfold Net.storeInference dpStart
    rw [if_neg (by simpa using hS)]
    generalize (if tk < 0 then st.newTicket else (tk, st)) = p
    cases p; rfl
  rw [hun, h1, h2]
  rcases Net.storeInfLoop_spec hne (fun n => Net.value_unfold hac I n) a [] (N.order S) (dpStart st tk).2
      (by simpa using Net.order_childrenFirst hac hso) (by simp) with ⟨st', g1, g2, g3⟩ | ⟨g1, n, hn, g2⟩
  · right
    obtain ⟨f1, f2, f3⟩ := frame_entries h3 h2 g3
    refine ⟨st', by rw [g1], ?_, ?_, ?_⟩
    · intro n hn
      have := g2 n (by simpa using (hol.2 n).2 hn)
      rw [f3 n]
      exact ⟨this.1, fun h => by simp [h] at this⟩
    · intro k hk n i; rw [f1 k hk, h4 k hk]
    · intro n i hn; rw [f2 n i (hn.imp_left (fun h h' => h ((hol.2 n).1 h'))), h5]
  · left; exact ⟨Net.value_none_up hac ((hol.2 n).1 hn) g2, by rw [g1]⟩

/-- C04, part: take any storage a client can reach, a ticket that is negative or has a table, a root with children in a network as in C03 whose
sum nodes have children. If `S.Value(I)` panics so does `StoreInference`. Otherwise it returns `S` and the ticket used, the entry of
every node reachable from `S` is its `Value`, no entry of another ticket changes, and no other entry of this ticket changes (a new
table is empty). Missing: networks in which `TopSortTarjan` does not list children first (`C04_order_refuted`). -/
theorem C04_storeInference_partial (N : Net ι F) (S : ι) (I : VarSet) (hac : Acyclic N.ch) (hso : SiblingOrdered N.ch S) (hS : N.ch S ≠ [])
    (hne : ∀ n cs w, N.kind n = .sum cs w → cs ≠ []) (ops : List (StOp ι F)) (c : Client ι F) (outs : List (StOut F))
    (hr : Client.new.run ops = some (c, outs)) (tk : Int) (ht : tk < 0 ∨ c.s.table tk ≠ none) :
    (N.value I S = none ∧ N.storeInference S I tk c.s = none) ∨
    ∃ st', N.storeInference S I tk c.s = some (some (S, usedTicket c.s tk), st') ∧
      (∀ n, Reach N.ch S n → st'.entry (usedTicket c.s tk) n 0 = N.value I n ∧ N.value I n ≠ none) ∧
      (∀ k, k ≠ usedTicket c.s tk → ∀ n i, st'.entry k n i = c.s.entry k n i) ∧
      (∀ n i, (¬ Reach N.ch S n ∨ i ≠ 0) → st'.entry (usedTicket c.s tk) n i = if tk < 0 then none else c.s.entry tk n i) :=
  storeInference_core N S I hac hso hS hne c.s (Client.run_wf ops Storer.new_wf hr) tk ht

example (w : List F) (l : Leaf F) : ∀ n cs v, (diamondNet w l).kind n = .sum cs v → cs ≠ [] := by
  intro n cs v h
  fin_cases n <;> simp [diamondNet] at h
  rw [← h.1]; simp

/-- C04 is false for networks with an edge bridged by a longer path: the product node 2 gets the entry 0 (probability one) although its
value is minus infinity, and the call reports success. -/
theorem C04_order_refuted :
    ∃ (N : Net (Fin 3) XR) (I : VarSet), Acyclic N.ch ∧ N.value I 2 = some .ninf ∧
      ((N.storeInference 0 I (-1) Storer.new).map (fun r => (r.1, r.2.entry 0 2 0))) = some (some (0, 0), some (.fin 0)) := by
  refine ⟨skipNet, fun _ => some 0, by rw [skipNet_ch]; exact skipDag_acyclic, ?_, ?_⟩
  · have hac : Acyclic skipNet.ch := by rw [skipNet_ch]; exact skipDag_acyclic
    have h1 : skipNet.value (fun _ => some 0) 1 = some .ninf := by
      rw [Net.value_unfold hac]; simp [Net.valueStep, skipNet, Leaf.value]
    rw [Net.value_unfold hac]
    have : skipNet.kind 2 = .product [1] := rfl
    simp [Net.valueStep, this, h1, prodCompute]
  · have hl : XR.log (.fin (1 / 2)) = .fin (Real.log (1 / 2)) := XR.log_pos (by norm_num)
    have k0 : skipNet.kind 0 = .sum [1, 2] [.fin (1 / 2), .fin (1 / 2)] := rfl
    have k1 : skipNet.kind 1 = .leaf (.indicator 0 1) := rfl
    have k2 : skipNet.kind 2 = .product [1] := rfl
    unfold Net.storeInference
    rw [if_neg (by rw [skipNet_ch]; decide), skipNet_order]
    simp [Net.storeInfLoop, Net.storeInfStep, k0, k1, k2, Storer.newTicket, Storer.makeAt, Storer.new, Storer.table, Storer.deref,
      Storer.tableStore, Table.entry, Table.empty, Leaf.value, prodCompute, storeVals, logSumExp, XR.lt, XR.log,
      Storer.entry, Table.store, Function.update]

/-! ### C07 -/

/-- C07, part: under the conditions of C04, whenever `StoreMAP` returns (whatever the random tie breaking) it returns `S`, the ticket used and a state,
the entry of every reachable node is its `Max`, and nothing else in the storage changes; and it panics if `S.Max(I)` does.
Missing: as for C04. -/
theorem C07_storeMAP_partial (N : Net ι F) (S : ι) (I : VarSet) (hac : Acyclic N.ch) (hso : SiblingOrdered N.ch S) (hS : N.ch S ≠ [])
    (ops : List (StOp ι F)) (c : Client ι F) (outs : List (StOut F))
    (hr : Client.new.run ops = some (c, outs)) (tk : Int) (ht : tk < 0 ∨ c.s.table tk ≠ none) (pick : ι → Nat → Nat) :
    (N.max I S = none → N.storeMAP S I tk c.s pick = none) ∧
    ∀ res st', N.storeMAP S I tk c.s pick = some (res, st') →
      (∃ M, res = some (S, usedTicket c.s tk, M)) ∧
      (∀ n, Reach N.ch S n → st'.entry (usedTicket c.s tk) n 0 = N.max I n ∧ N.max I n ≠ none) ∧
      (∀ k, k ≠ usedTicket c.s tk → ∀ n i, st'.entry k n i = c.s.entry k n i) ∧
      (∀ n i, (¬ Reach N.ch S n ∨ i ≠ 0) → st'.entry (usedTicket c.s tk) n i = if tk < 0 then none else c.s.entry tk n i) := by
  have hw : c.s.WF := Client.run_wf ops Storer.new_wf hr
  obtain ⟨h1, a, h2, h3, h4, h5⟩ := dpStart_spec hw ht
  have hol := N.order_lists S
  have hun : N.storeMAP S I tk c.s pick =
      ((N.order S).foldlM (N.storeMapStep I ((dpStart c.s tk).2.table (dpStart c.s tk).1)) (dpStart c.s tk).2).bind fun st' =>
        (work (N.mapStateStep I (fun c' => ((st'.deref ((dpStart c.s tk).2.table (dpStart c.s tk).1)).entry c' 0).getD (ofInt 0)) pick) false S
          (fun _ => none)).map fun M => (some (S, (dpStart c.s tk).1, M), st') := by
    unfold Net.storeMAP dpStart
    rw [if_neg (by simpa using hS)]
  rw [hun, h1, h2]
  rcases Net.storeMap_fold hac (I := I) (Net.order_childrenFirst hac hso) a (dpStart c.s tk).2 with ⟨st1, g1, g2, g3⟩ | ⟨g1, g2⟩
  · rw [g1]
    simp only [Option.bind_some]
    constructor
    · intro h; have := (g2 S Relation.ReflTransGen.refl).2; simp [h] at this
    · intro res st' h
      simp only [Option.map_eq_some_iff, Prod.mk.injEq] at h
      obtain ⟨M, _, rfl, rfl⟩ := h
      obtain ⟨f1, f2, f3⟩ := frame_entries h3 h2 g3
      refine ⟨⟨M, rfl⟩, ?_, ?_, ?_⟩
      · intro n hn
        have := g2 n hn
        rw [f3 n]
        exact ⟨this.1, fun h => by simp [h] at this⟩
      · intro k hk n i; rw [f1 k hk, h4 k hk]
      · intro n i hn; rw [f2 n i (hn.imp_left (fun h h' => h ((hol.2 n).1 h'))), h5]
  · rw [g1]; simp

/-- `StoreMAP` if `S.Max(I)` returns: the first part stores the MAP values, the second computes the state from them. -/
theorem storeMAP_phases (N : Net ι F) (S : ι) (I : VarSet) (hac : Acyclic N.ch) (hso : SiblingOrdered N.ch S) (hS : N.ch S ≠ [])
    (ops : List (StOp ι F)) (c : Client ι F) (outs : List (StOut F))
    (hr : Client.new.run ops = some (c, outs)) (tk : Int) (ht : tk < 0 ∨ c.s.table tk ≠ none) (pick : ι → Nat → Nat) (hm : N.max I S ≠ none) :
    ∃ st' get, (∀ n, Reach N.ch S n → N.max I n = some (get n)) ∧
      N.storeMAP S I tk c.s pick = (work (N.mapStateStep I get pick) false S (fun _ => none)).map fun M => (some (S, usedTicket c.s tk, M), st') := by
  have hw : c.s.WF := Client.run_wf ops Storer.new_wf hr
  obtain ⟨h1, a, h2, h3, h4, h5⟩ := dpStart_spec hw ht
  have hun : N.storeMAP S I tk c.s pick =
      ((N.order S).foldlM (N.storeMapStep I ((dpStart c.s tk).2.table (dpStart c.s tk).1)) (dpStart c.s tk).2).bind fun st' =>
        (work (N.mapStateStep I (fun c' => ((st'.deref ((dpStart c.s tk).2.table (dpStart c.s tk).1)).entry c' 0).getD (ofInt 0)) pick) false S
          (fun _ => none)).map fun M => (some (S, (dpStart c.s tk).1, M), st') := by
    unfold Net.storeMAP dpStart
    rw [if_neg (by simpa using hS)]
  rw [hun, h1, h2]
  rcases Net.storeMap_fold hac (I := I) (Net.order_childrenFirst hac hso) a (dpStart c.s tk).2 with ⟨st1, g1, g2, g3⟩ | ⟨g1, g2⟩
  · rw [g1]
    refine ⟨st1, _, ?_, rfl⟩
    intro n hn
    have h := g2 n hn
    have he : (st1.deref (some a)).entry n 0 = N.max I n := h.1
    obtain ⟨x, hx⟩ := Option.isSome_iff_exists.1 h.2
    rw [he, hx]; rfl
  · exact absurd g2 hm

/-- C07, part: the second result of `ArgMax` is `Max`, if no Gaussian leaf has standard deviation zero. Missing: such leaves (`C07_argMax_refuted`). -/
theorem C07_argMax_value_partial (N : Net ι F) (S : ι) (I : VarSet) (hac : Acyclic N.ch)
    (hg : ∀ n v mu sigma, N.kind n = .leaf (.gaussian v mu sigma) → GoFloat.eq sigma (ofInt 0) = false) (M : VarSet) (v : F)
    (h : N.argMax I S = some (M, v)) : N.max I S = some v := by
  refine Net.argMax_value hac I (S := S) ?_ S Relation.ReflTransGen.refl (M, v) h
  intro n l _ hk r hl
  cases l with
  | indicator a b =>
    simp only [Leaf.argMax, Leaf.max] at hl ⊢
    cases hI : I a with
    | none => simp [hI] at hl ⊢; rw [← hl]
    | some u => by_cases hu : u = b <;> simp [hI, hu] at hl ⊢ <;> rw [← hl]
  | multinomial sc a pr mi mv =>
    simp only [Leaf.argMax, Leaf.max] at hl ⊢
    cases hI : I a with
    | none => simp [hI] at hl ⊢; rw [← hl]
    | some u => simp [hI] at hl ⊢; obtain ⟨p, hp, rfl⟩ := hl; exact ⟨p, hp, rfl⟩
  | gaussian a mu sigma =>
    simp only [Leaf.argMax, Leaf.max, hg n a mu sigma hk, Bool.false_eq_true, if_false] at hl ⊢
    cases hI : I a <;> simp [hI] at hl ⊢ <;> rw [← hl]

example (w : List F) (a b : Int) : ∀ n v mu sigma, (diamondNet w (.indicator a b)).kind n = .leaf (.gaussian v mu sigma) →
    GoFloat.eq sigma (ofInt 0) = false := by
  intro n v mu sigma h
  fin_cases n <;> simp [diamondNet] at h

/-- C07 is false for a Gaussian leaf with standard deviation zero: `ArgMax` reports probability one where `Max` is minus infinity. -/
theorem C07_argMax_refuted :
    ∃ (N : Net Unit XR) (I : VarSet) (M : VarSet), Acyclic N.ch ∧ N.argMax I () = some (M, .fin 0) ∧ N.max I () = some .ninf := by
  refine ⟨⟨fun _ => .leaf (.gaussian 0 (.fin 0) (.fin 0))⟩, fun _ => some 1, VarSet.single 0 0, ⟨fun _ => 0, by simp [Net.ch]⟩, ?_, ?_⟩
  · simp [Net.argMax, dagRec, fuelRec, Net.argMaxStep, Leaf.argMax, XR.toInt]
  · simp [Net.max, dagRec, fuelRec, Net.maxStep, Leaf.max, zeroSigma, XR.toInt]

end Gospn
