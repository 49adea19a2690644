import Verif.Model.Learn
import Verif.Spec.Learn
import Verif.Props.Derive
import Verif.Props.Structure
/-
Lemmas about the learning loops.
-/
set_option linter.unusedSectionVars false
set_option linter.unusedSimpArgs false
namespace Gospn
open Spec GoFloat

section Shape
variable {ι F : Type}

theorem Spec.OnlyWeights.refl (S : ι) (N : Net ι F) : OnlyWeights S N N := by
  intro n
  cases hk : N.kind n with
  | sum cs w => exact ⟨w, rfl, rfl, fun _ => rfl⟩
  | product cs => rfl
  | leaf l => rfl

theorem Spec.OnlyWeights.sum {S : ι} {N N' : Net ι F} (h : OnlyWeights S N N') {n : ι} {cs : List ι} {w : List F} (hk : N.kind n = .sum cs w) :
    ∃ w' : List F, N'.kind n = .sum cs w' ∧ w'.length = w.length ∧ (¬ Reach N.ch S n → w' = w) := by
  have := h n; rw [hk] at this; exact this

theorem Spec.OnlyWeights.sum' {S : ι} {N N' : Net ι F} (h : OnlyWeights S N N') {n : ι} {cs : List ι} {w' : List F} (hk : N'.kind n = .sum cs w') :
    ∃ w : List F, N.kind n = .sum cs w ∧ w'.length = w.length ∧ (¬ Reach N.ch S n → w' = w) := by
  have := h n
  cases hk' : N.kind n with
  | sum cs' w =>
    rw [hk'] at this
    obtain ⟨w'', h1, h2, h3⟩ := this
    rw [hk] at h1
    simp only [Kind.sum.injEq] at h1
    obtain ⟨rfl, rfl⟩ := h1
    exact ⟨w, rfl, h2, h3⟩
  | product cs' => rw [hk'] at this; rw [hk] at this; cases this
  | leaf l => rw [hk'] at this; rw [hk] at this; cases this

theorem Spec.OnlyWeights.leaf {S : ι} {N N' : Net ι F} (h : OnlyWeights S N N') {n : ι} {l : Leaf F} : N'.kind n = .leaf l ↔ N.kind n = .leaf l := by
  have := h n
  cases hk : N.kind n with
  | sum cs w => rw [hk] at this; obtain ⟨w', h1, _⟩ := this; simp [h1]
  | product cs => rw [hk] at this; simp [this]
  | leaf l' => rw [hk] at this; simp [this]

theorem Spec.OnlyWeights.product {S : ι} {N N' : Net ι F} (h : OnlyWeights S N N') {n : ι} {cs : List ι} : N'.kind n = .product cs ↔ N.kind n = .product cs := by
  have := h n
  cases hk : N.kind n with
  | sum cs w => rw [hk] at this; obtain ⟨w', h1, _⟩ := this; simp [h1]
  | product cs => rw [hk] at this; simp [this]
  | leaf l' => rw [hk] at this; simp [this]

theorem Spec.OnlyWeights.ch {S : ι} {N N' : Net ι F} (h : OnlyWeights S N N') : N'.ch = N.ch := by
  funext n
  have := h n
  cases hk : N.kind n with
  | sum cs w => rw [hk] at this; obtain ⟨w', h1, _⟩ := this; simp [Net.ch, hk, h1]
  | product cs => rw [hk] at this; simp [Net.ch, hk, this]
  | leaf l => rw [hk] at this; simp [Net.ch, hk, this]

theorem Spec.OnlyWeights.type {S : ι} {N N' : Net ι F} (h : OnlyWeights S N N') (n : ι) : N'.type n = N.type n := by
  have := h n
  cases hk : N.kind n with
  | sum cs w => rw [hk] at this; obtain ⟨w', h1, _⟩ := this; simp [Net.type, hk, h1]
  | product cs => rw [hk] at this; simp [Net.type, hk, this]
  | leaf l => rw [hk] at this; simp [Net.type, hk, this]

theorem Spec.OnlyWeights.trans {S : ι} {N N' N'' : Net ι F} (h : OnlyWeights S N N') (h' : OnlyWeights S N' N'') : OnlyWeights S N N'' := by
  intro n
  cases hk : N.kind n with
  | sum cs w =>
    obtain ⟨w', h1, h2, h3⟩ := h.sum hk
    obtain ⟨w'', g1, g2, g3⟩ := h'.sum h1
    exact ⟨w'', g1, g2.trans h2, fun hn => (g3 (by rw [h.ch]; exact hn)).trans (h3 hn)⟩
  | product cs => exact h'.product.2 (h.product.2 hk)
  | leaf l => exact h'.leaf.2 (h.leaf.2 hk)

theorem Spec.OnlyWeights.inScope {S : ι} {N N' : Net ι F} (h : OnlyWeights S N N') (n : ι) (v : Int) : InScope N' n v ↔ InScope N n v := by
  unfold InScope
  rw [h.ch]
  simp only [h.leaf]

theorem Spec.OnlyWeights.complete {S : ι} {N N' : Net ι F} (h : OnlyWeights S N N') (hc : IsComplete N S) : IsComplete N' S := by
  intro n hn cs w hk c hcs d hd v hv
  obtain ⟨w', h1, _⟩ := h.sum' hk
  rw [h.inScope] at hv ⊢
  exact hc n (by rw [← h.ch]; exact hn) cs w' h1 c hcs d hd v hv

theorem Spec.OnlyWeights.decomposable {S : ι} {N N' : Net ι F} (h : OnlyWeights S N N') (hc : IsDecomposable N S) : IsDecomposable N' S := by
  intro n hn cs hk
  have := hc n (by rw [← h.ch]; exact hn) cs (h.product.1 hk)
  refine this.imp fun hv v => ?_
  rw [h.inScope, h.inScope]; exact hv v

theorem Spec.OnlyWeights.leavesEval {S : ι} {N N' : Net ι XR} (h : OnlyWeights S N N') {I : VarSet} (hl : LeavesEval N S I) : LeavesEval N' S I := by
  intro n l hn hk
  exact hl n l (by rw [← h.ch]; exact hn) (h.leaf.1 hk)

theorem Spec.OnlyWeights.discrete {S : ι} {N N' : Net ι XR} (h : OnlyWeights S N N') {dom : Int → Finset Int} (hl : DiscreteLeaves N S dom) : DiscreteLeaves N' S dom := by
  intro n l hn hk
  exact hl n l (by rw [← h.ch]; exact hn) (h.leaf.1 hk)

end Shape

variable {ι : Type} [DecidableEq ι] [Fintype ι]

/-! ### Storing values on an arbitrary graph -/

/-- A storage with a table for the ticket whose entries of index 0 are log-probabilities. -/
structure LogsAt (tk : Int) (st : Storer ι XR) : Prop where
  nonneg : 0 ≤ tk
  table : st.table tk ≠ none
  logs : ∀ n x, st.entry tk n 0 = some x → IsLogProb x

theorem storeVals_log (single : ι → Option XR) (hs : ∀ c x, single c = some x → IsLogProb x) : ∀ (cs : List ι) (r : List ℝ), r.length = cs.length → (∀ x ∈ r, 0 ≤ x) →
    storeVals single cs (r.map XR.fin) = some none ∨ ∃ vs, storeVals single cs (r.map XR.fin) = some (some vs) ∧ vs.length = cs.length ∧ ∀ v ∈ vs, IsLogProb v := by
  intro cs
  induction cs with
  | nil => intro r _ _; exact Or.inr ⟨[], by simp [storeVals], rfl, by simp⟩
  | cons c cs ih =>
    intro r hr hx
    cases r with
    | nil => simp at hr
    | cons a r =>
      cases hc : single c with
      | none => left; simp [storeVals, hc]
      | some v =>
        rcases ih r (by simpa using hr) (fun x h => hx x (by simp [h])) with h | ⟨vs, h1, h2, h3⟩
        · left; simp [storeVals, hc, h]
        · right
          refine ⟨XR.add v (XR.log (.fin a)) :: vs, by simp [storeVals, hc, h1], by simp [h2], ?_⟩
          intro u hu
          rcases List.mem_cons.1 hu with rfl | hu
          · exact (add_spec (hs c v hc) (log_nonneg_spec (hx a (by simp))).1).1
          · exact h3 u hu

theorem LogTab.store {a : Nat} {st st' : Storer ι XR} (h : LogTab a st) {s : ι} {v : XR} (hv : IsLogProb v) (hs : st.tableStore (some a) s 0 v = some st') : LogTab a st' := by
  intro n e he
  rw [tab0_store a st st' s v hs] at he
  by_cases hn : n = s
  · subst hn; rw [Function.update_self] at he; cases he; exact hv
  · rw [Function.update_of_ne hn] at he; exact h n e he

theorem storeInfStep_log {N : Net ι XR} {S : ι} {I : VarSet} (hw : NonnegWeights N S) (hl : LeavesEval N S I) {a : Nat} {st : Storer ι XR} (ht : LogTab a st) {s : ι}
    (hs : Reach N.ch S s) : ∃ st' b, N.storeInfStep I (some a) st s = some (st', b) ∧ FrameAt a [s] st st' ∧ LogTab a st' := by
  unfold Net.storeInfStep
  cases hk : N.kind s with
  | leaf l =>
    obtain ⟨x, hx, hx'⟩ := hl s l hs hk
    obtain ⟨st', h⟩ : ∃ st', st.tableStore (some a) s 0 x = some st' := ⟨_, rfl⟩
    exact ⟨st', true, by simp [hx, h], FrameAt.store h, ht.store hx' h⟩
  | product cs =>
    have hp : IsLogProb (prodCompute (cs.map fun c => ((st.deref (some a)).entry c 0).getD (ofInt 0))) := by
      refine (prodCompute_spec _ ?_).1
      intro v hv
      obtain ⟨c, _, rfl⟩ := List.mem_map.1 hv
      cases hc : (st.deref (some a)).entry c 0 with
      | none => exact isLogProb_fin _
      | some x => exact ht c x hc
    obtain ⟨st', h⟩ : ∃ st', st.tableStore (some a) s 0 (prodCompute (cs.map fun c => ((st.deref (some a)).entry c 0).getD (ofInt 0))) = some st' := ⟨_, rfl⟩
    exact ⟨st', true, by simp only [h]; rfl, FrameAt.store h, ht.store hp h⟩
  | sum cs w =>
    obtain ⟨hne, r, rfl, h1, h2⟩ := hw s hs cs w hk
    simp only
    rcases storeVals_log (fun c => (st.deref (some a)).entry c 0) (fun c x hc => ht c x hc) cs r h1 h2 with h | ⟨vs, g1, g2, g3⟩
    · refine ⟨st, false, by rw [h]; rfl, FrameAt.refl _ _ _, ht⟩
    · obtain ⟨x, h6, h7, _⟩ := logSumExp_spec (l := vs) (by intro h; subst h; exact hne (List.length_eq_zero_iff.1 (by simpa using g2.symm))) g3
      obtain ⟨st', h⟩ : ∃ st', st.tableStore (some a) s 0 x = some st' := ⟨_, rfl⟩
      exact ⟨st', true, by simp [g1, hne, h6, h], FrameAt.store h, ht.store h7 h⟩

theorem storeInfLoop_log {N : Net ι XR} {S : ι} {I : VarSet} (hw : NonnegWeights N S) (hl : LeavesEval N S I) {a : Nat} : ∀ (l : List ι) (st : Storer ι XR), LogTab a st →
    (∀ n ∈ l, Reach N.ch S n) → ∃ st' b, N.storeInfLoop I (some a) st l = some (st', b) ∧ FrameAt a l st st' ∧ LogTab a st' := by
  intro l
  induction l with
  | nil => intro st ht _; exact ⟨st, true, rfl, FrameAt.refl _ _ _, ht⟩
  | cons s l ih =>
    intro st ht hr
    obtain ⟨st1, b, h1, h2, h3⟩ := storeInfStep_log hw hl ht (hr s (by simp))
    cases b with
    | false => exact ⟨st1, false, by simp [Net.storeInfLoop, h1], h2.mono (by simp), h3⟩
    | true =>
      obtain ⟨st2, b, g1, g2, g3⟩ := ih st1 h3 (fun n hn => hr n (by simp [hn]))
      refine ⟨st2, b, by simp only [Net.storeInfLoop, h1]; exact g1, (h2.mono (by simp)).trans (g2.mono (by simp +contextual)), g3⟩

theorem FrameAt.same {F : Type} {a : Nat} {l : List ι} {st st' : Storer ι F} (h : FrameAt a l st st') : SameTables st st' := ⟨h.tables, h.tickets, h.next, h.ok⟩

theorem entry_tab0 {F : Type} {st : Storer ι F} {tk : Int} {a : Nat} (ha : st.table tk = some a) (n : ι) : st.entry tk n 0 = tab0 a st n := by
  have ha' : st.tables tk = some a := ha
  simp [Storer.entry, ha', tab0]

/-- `StoreInference` on any graph: it returns, stores nothing but log-probabilities, and leaves other tickets alone. -/
theorem storeInference_logs {N : Net ι XR} {S : ι} {I : VarSet} (hw : NonnegWeights N S) (hl : LeavesEval N S I) {tk : Int} {st : Storer ι XR} (hwf : st.WF) (hg : LogsAt tk st) :
    ∃ r st', N.storeInference S I tk st = some (r, st') ∧ SameTables st st' ∧ LogsAt tk st' ∧ ∀ k, k ≠ tk → ∀ n i, st'.entry k n i = st.entry k n i := by
  by_cases hS : N.ch S = []
  · exact ⟨none, st, by simp [Net.storeInference, hS], ⟨rfl, rfl, rfl, id⟩, hg, fun _ _ _ _ => rfl⟩
  · obtain ⟨a, ha⟩ := Option.ne_none_iff_exists'.1 hg.table
    have hlt : LogTab a st := fun n e he => hg.logs n e (by rw [entry_tab0 ha]; exact he)
    obtain ⟨st', b, h1, h2, h3⟩ := storeInfLoop_log hw hl (N.order S) st hlt (fun n hn => ((N.order_lists S).2 n).1 hn)
    have ha' : st'.table tk = some a := by rw [← ha]; simp only [Storer.table, h2.tables]
    refine ⟨if b then some (S, tk) else none, st', ?_, h2.same, ⟨hg.nonneg, by rw [ha']; simp, ?_⟩, (frame_entries hwf ha h2).1⟩
    · unfold Net.storeInference
      rw [if_neg (by simpa using hS), if_neg (by have := hg.nonneg; omega)]
      simp only [ha, h1]
      cases b <;> rfl
    · intro n x hx; rw [entry_tab0 ha'] at hx; exact h3 n x hx

/-- `DeriveSPN` on any graph, given stored log-probabilities and an empty table. -/
theorem deriveSPN_logs {N : Net ι XR} {S : ι} (hw : NonnegWeights N S) {tk itk : Int} {st : Storer ι XR} (hwf : st.WF) (hi : LogsAt itk st) (h0 : 0 ≤ tk) (ht : st.table tk ≠ none)
    (hne : tk ≠ itk) (hemp : ∀ n, st.entry tk n 0 = none) (isStack : Bool) :
    ∃ st', N.deriveSPN S st tk itk isStack = some (tk, st') ∧ SameTables st st' ∧ LogsAt tk st' ∧ ∀ k, k ≠ tk → ∀ n i, st'.entry k n i = st.entry k n i := by
  obtain ⟨a, ha⟩ := Option.ne_none_iff_exists'.1 ht
  obtain ⟨ai, hai⟩ := Option.ne_none_iff_exists'.1 hi.table
  have hd : ai ≠ a := by rintro rfl; exact hne (hwf.inj _ _ _ ha hai)
  obtain ⟨st1, st2, h1, h2, ⟨l, h3, _⟩, h4, _, _⟩ := derive_any (p := fun n => unlog (((st.heap ai).entry n 0).getD (ofInt 0))) (S := S) hw hd st
    (fun n => by rw [← entry_tab0 ha]; exact hemp n) (fun n _ => ⟨by
      cases hc : (st.heap ai).entry n 0 with
      | none => exact isLogProb_fin _
      | some x => exact hi.logs n x (by rw [entry_tab0 hai]; exact hc), rfl⟩) isStack
  have ha' : st2.table tk = some a := by rw [← ha]; simp only [Storer.table, h3.tables]
  refine ⟨st2, ?_, h3.same, ⟨h0, by rw [ha']; simp, ?_⟩, (frame_entries hwf ha h3).1⟩
  · unfold Net.deriveSPN newIfNeg
    rw [if_neg (by omega)]
    simp only [ha, hai, h1, Option.bind_some, h2, Option.map_some]
  · intro n x hx; rw [entry_tab0 ha'] at hx; exact h4 n x hx

/-! ### Resets -/

theorem reset_entry {F : Type} {st : Storer ι F} (hw : st.WF) (k j : Int) (n : ι) (i : Int) : (st.reset k).entry j n i = if j = k then none else st.entry j n i := by
  rw [Storer.reset, Storer.makeAt_entry (Storer.delete_wf hw k)]
  by_cases hj : j = k
  · simp [hj]
  · simp [hj, Storer.entry, Storer.delete]

theorem reset_table {F : Type} {st : Storer ι F} (k j : Int) (h : st.table j ≠ none) : (st.reset k).table j ≠ none := by
  by_cases hj : j = k
  · simp [Storer.reset, Storer.makeAt, Storer.table, hj]
  · simpa [Storer.reset, Storer.makeAt, Storer.table, Storer.delete, hj] using h

theorem SameTables.table {F : Type} {st st' : Storer ι F} (h : SameTables st st') (k : Int) : st'.table k = st.table k := by
  simp [Storer.table, h.1]

/-! ### One gradient step -/

theorem exp_logProb {x : XR} (hx : IsLogProb x) : XR.exp x = .fin (unlog x) := by
  rcases IsLogProb.cases hx with rfl | ⟨r, rfl⟩ <;> simp [XR.exp, unlog]

theorem LogsAt.getD {tk : Int} {st : Storer ι XR} (h : LogsAt tk st) (n : ι) : IsLogProb ((st.entry tk n 0).getD (ofInt 0)) := by
  cases hc : st.entry tk n 0 with
  | none => exact isLogProb_fin _
  | some x => exact h.logs n x hc

theorem unlog_nonneg' (x : XR) : 0 ≤ unlog x := by
  cases x <;> simp [unlog]
  exact (Real.exp_pos _).le

theorem normalize_nonneg {v : List ℝ} (hv : ∀ x ∈ v, 0 ≤ x) (hs : 0 < v.sum) :
    learnNormalize (v.map XR.fin) = (v.map (fun x => x / v.sum)).map XR.fin ∧ (∀ x ∈ v.map (fun x => x / v.sum), 0 ≤ x) ∧ (v.map (fun x => x / v.sum)).sum = 1 := by
  have h := C25_normalize v (by rw [shiftNonneg_of_nonneg hv]; exact hs)
  rw [shiftNonneg_of_nonneg hv] at h
  exact ⟨h.1, h.2.1, h.2.2⟩

theorem sum_zipWith_le {α : Type} (g : α → ℝ) : ∀ (cs : List α) (r : List ℝ), r.length = cs.length → (∀ c ∈ cs, 0 ≤ g c) →
    r.sum ≤ (List.zipWith (fun c x => x + g c) cs r).sum := by
  intro cs
  induction cs with
  | nil => intro r hr _; simp at hr; subst hr; simp
  | cons c cs ih =>
    intro r hr hg
    cases r with
    | nil => simp at hr
    | cons a r =>
      have := ih r (by simpa using hr) (fun c h => hg c (by simp [h]))
      have := hg c (by simp)
      simp only [List.sum_cons, List.zipWith_cons_cons]; linarith

/-- `DeriveApplyWeights` on stored log-probabilities: the weight of the edge to `c` grows by `eta` times the product of what is stored. -/
theorem applyWeights_logs {N : Net ι XR} {S : ι} (hw : NonnegWeights N S) {dtk itk : Int} {st : Storer ι XR} (hd : LogsAt dtk st) (hi : LogsAt itk st) (eta : ℝ) (he : 0 ≤ eta)
    (isStack norm : Bool) :
    ∃ N' : Net ι XR, N.deriveApplyWeights S (.fin eta) st dtk itk isStack norm = some N' ∧
      (norm = false ∨ DistWeights N S → OnlyWeights S N N') ∧ (norm = false → NonnegWeights N' S) ∧ (norm = true → DistWeights N S → DistWeights N' S) := by
  obtain ⟨N', h1, h2, h3⟩ := C33_apply N S (.fin eta) st dtk itk isStack norm (by
    intro n hr cs w hk
    obtain ⟨_, r, rfl, hlen, _⟩ := hw n hr cs w hk
    simp [hlen])
  -- the weights before normalisation
  have hfin : ∀ n, Reach N.ch S n → ∀ cs (r : List ℝ), r.length = cs.length → (∀ x ∈ r, 0 ≤ x) → N.kind n = .sum cs (r.map XR.fin) →
      ∃ r' : List ℝ, N'.kind n = .sum cs (if norm then learnNormalize (r'.map XR.fin) else r'.map XR.fin) ∧ r'.length = r.length ∧ (∀ x ∈ r', 0 ≤ x) ∧ r.sum ≤ r'.sum := by
    intro n hr cs r hlen hr0 hk
    obtain ⟨w', g1, g2, g3, g4⟩ := h3 n hr cs _ hk
    have hg : ∀ c, 0 ≤ eta * (unlog ((st.entry itk c 0).getD (ofInt 0)) * unlog ((st.entry dtk n 0).getD (ofInt 0))) :=
      fun c => mul_nonneg he (mul_nonneg (unlog_nonneg' _) (unlog_nonneg' _))
    have hw' : w' = (List.zipWith (fun c x => x + eta * (unlog ((st.entry itk c 0).getD (ofInt 0)) * unlog ((st.entry dtk n 0).getD (ofInt 0)))) cs r).map XR.fin := by
      apply List.ext_getElem?
      intro i
      by_cases hi' : i < r.length
      · have hc : cs[i]? = some (cs[i]'(by omega)) := List.getElem?_eq_getElem _
        have hx : r[i]? = some r[i] := List.getElem?_eq_getElem hi'
        rw [g3 i _ _ hc (by simp [hx]; rfl)]
        have hp := add_spec (hi.getD (cs[i]'(by omega))) (hd.getD n)
        simp only [List.getElem?_map, List.getElem?_zipWith, hc, hx, Option.map_some, XR.g_add, XR.g_exp, XR.g_mul]
        rw [exp_logProb hp.1, hp.2]; simp
      · rw [List.getElem?_eq_none (by rw [g2]; simp; omega), List.getElem?_eq_none (by simp; omega)]
    refine ⟨_, by rw [g1, hw'], by simp [hlen], ?_, sum_zipWith_le _ cs r hlen (fun c _ => hg c)⟩
    intro x hx
    obtain ⟨i, hi', rfl⟩ := List.mem_iff_getElem.1 hx
    simp only [List.getElem_zipWith]
    have hir : i < r.length := by simp at hi'; omega
    have := hr0 r[i] (List.getElem_mem hir)
    have := hg (cs[i]'(by omega))
    linarith
  have hshape : norm = false ∨ DistWeights N S → OnlyWeights S N N' := by
    intro hnd n
    cases hk : N.kind n with
    | product cs => exact (h2 n (Or.inr (by simp [Net.type, hk]))).trans hk
    | leaf l => exact (h2 n (Or.inr (by simp [Net.type, hk]))).trans hk
    | sum cs w =>
      by_cases hr : Reach N.ch S n
      · rcases hnd with hnd | hD
        · obtain ⟨_, r, rfl, g1, g2⟩ := hw n hr cs w hk
          obtain ⟨r', q1, q2, q3, q4⟩ := hfin n hr cs r g1 g2 hk
          subst hnd
          exact ⟨_, q1, by simp [q2], fun h => absurd hr h⟩
        · obtain ⟨r, rfl, g1, g2, g3⟩ := hD n hr cs w hk
          obtain ⟨r', q1, q2, q3, q4⟩ := hfin n hr cs r g1 g2 hk
          have hpos : 0 < r'.sum := by rw [g3] at q4; linarith
          rw [(normalize_nonneg q3 hpos).1] at q1
          exact ⟨_, q1, by split <;> simp [q2], fun h => absurd hr h⟩
      · exact ⟨w, (h2 n (Or.inl hr)).trans hk, rfl, fun _ => rfl⟩
  refine ⟨N', h1, hshape, ?_, ?_⟩
  · intro hn n hr cs w hk
    have hs := hshape (Or.inl hn)
    rw [hs.ch] at hr
    obtain ⟨w0, hk0, _⟩ := hs.sum' hk
    obtain ⟨hne, r, rfl, g1, g2⟩ := hw n hr cs w0 hk0
    obtain ⟨r', q1, q2, q3, q4⟩ := hfin n hr cs r g1 g2 hk0
    subst hn
    rw [hk] at q1
    simp only [Kind.sum.injEq, Bool.false_eq_true, if_false, true_and] at q1
    exact ⟨hne, r', q1, by rw [q2, g1], q3⟩
  · intro hn hD n hr cs w hk
    have hs := hshape (Or.inr hD)
    rw [hs.ch] at hr
    obtain ⟨w0, hk0, _⟩ := hs.sum' hk
    obtain ⟨r, rfl, g1, g2, g3⟩ := hD n hr cs w0 hk0
    obtain ⟨r', q1, q2, q3, q4⟩ := hfin n hr cs r g1 g2 hk0
    have hpos : 0 < r'.sum := by rw [g3] at q4; linarith
    subst hn
    obtain ⟨e1, e2, e3⟩ := normalize_nonneg q3 hpos
    rw [hk, e1] at q1
    simp only [Kind.sum.injEq, if_true, true_and] at q1
    exact ⟨_, q1, by simp [q2, g1], e2, e3⟩

/-- Both tickets have empty tables. -/
structure TwoTickets {F : Type} (stk itk : Int) (st : Storer ι F) : Prop where
  wf : st.WF
  ne : stk ≠ itk
  nn : 0 ≤ stk ∧ 0 ≤ itk
  tabs : st.table stk ≠ none ∧ st.table itk ≠ none
  empty : ∀ n i, st.entry stk n i = none ∧ st.entry itk n i = none

theorem twoTickets_reset {F : Type} {stk itk : Int} {st : Storer ι F} (hw : st.WF) (hne : stk ≠ itk) (hnn : 0 ≤ stk ∧ 0 ≤ itk) (ht : st.table stk ≠ none ∧ st.table itk ≠ none) :
    TwoTickets stk itk ((st.reset itk).reset stk) := by
  refine ⟨Storer.reset_wf (Storer.reset_wf hw _) _, hne, hnn, ⟨reset_table _ _ (reset_table _ _ ht.1), reset_table _ _ (reset_table _ _ ht.2)⟩, ?_⟩
  intro n i
  rw [reset_entry (Storer.reset_wf hw _), reset_entry (Storer.reset_wf hw _), reset_entry hw]
  simp [Ne.symm hne, reset_entry hw]

theorem twoTickets_new {F : Type} : TwoTickets ((Storer.new : Storer ι F).newTicket).1 ((Storer.new : Storer ι F).newTicket.2.newTicket).1
    ((Storer.new : Storer ι F).newTicket.2.newTicket).2 := by
  refine ⟨Storer.newTicket_wf (Storer.newTicket_wf Storer.new_wf), by simp [Storer.newTicket, Storer.new, Storer.makeAt], by simp [Storer.newTicket, Storer.new, Storer.makeAt], ?_, ?_⟩
  · simp [Storer.newTicket, Storer.new, Storer.makeAt, Storer.table]
  · intro n i
    simp [Storer.newTicket, Storer.new, Storer.makeAt, Storer.entry, Table.empty, Table.entry, Function.update_apply]

theorem TwoTickets.logs {stk itk : Int} {st : Storer ι XR} (h : TwoTickets stk itk st) : LogsAt itk st :=
  ⟨h.nn.2, h.tabs.2, fun n x hx => by rw [(h.empty n 0).2] at hx; cases hx⟩

/-- One instance of `GenerativeGD`. -/
theorem gdInstance_ok {N : Net ι XR} {S : ι} {I : VarSet} (hw : NonnegWeights N S) (hl : LeavesEval N S I) {stk itk : Int} {st : Storer ι XR} (ht : TwoTickets stk itk st)
    (eta : ℝ) (he : 0 ≤ eta) (isStack norm : Bool) :
    ∃ (N' : Net ι XR) (st' : Storer ι XR), Net.gdInstance S (.fin eta) stk itk isStack norm (N, st) I = some (N', st') ∧ TwoTickets stk itk st' ∧
      (norm = false ∨ DistWeights N S → OnlyWeights S N N') ∧ (norm = false → NonnegWeights N' S) ∧ (norm = true → DistWeights N S → DistWeights N' S) := by
  obtain ⟨r, st1, h1, h2, h3, h4⟩ := storeInference_logs hw hl ht.wf ht.logs
  have hw1 := h2.wf ht.wf
  obtain ⟨st2, g1, g2, g3, g4⟩ := deriveSPN_logs (S := S) hw hw1 h3 ht.nn.1 (by rw [h2.table]; exact ht.tabs.1) ht.ne
    (fun n => by rw [h4 stk ht.ne]; exact (ht.empty n 0).1) isStack
  have hi : LogsAt itk st2 := ⟨ht.nn.2, by rw [g2.table]; exact h3.table, fun n x hx => h3.logs n x (by rw [← g4 itk (Ne.symm ht.ne)]; exact hx)⟩
  obtain ⟨N', q1, q2, q3, q4⟩ := applyWeights_logs hw g3 hi eta he isStack norm
  refine ⟨N', (st2.reset itk).reset stk, by simp only [Net.gdInstance, h1, Option.bind_some, g1, q1, Option.map_some], ?_, q2, q3, q4⟩
  exact twoTickets_reset (g2.wf hw1) ht.ne ht.nn ⟨g3.table, hi.table⟩

theorem epochs_invariant {σ : Type} {P : σ → Prop} {body : σ → Option σ} (h : ∀ x, P x → ∃ y, body x = some y ∧ P y) (k : Int) (x : σ) (hx : P x) :
    ∃ y, epochs k body x = some y ∧ P y := by
  unfold epochs
  generalize k.toNat = n
  induction n generalizing x with
  | zero => exact ⟨x, rfl, hx⟩
  | succ n ih =>
    obtain ⟨y, h1, h2⟩ := h x hx
    obtain ⟨z, g1, g2⟩ := ih y h2
    exact ⟨z, by rw [List.replicate_succ, List.foldlM_cons, h1]; exact g1, g2⟩

theorem foldlM_inv {σ α : Type} {P : σ → Prop} {f : σ → α → Option σ} : ∀ (l : List α) (x : σ), (∀ a ∈ l, ∀ x, P x → ∃ y, f x a = some y ∧ P y) → P x →
    ∃ y, l.foldlM f x = some y ∧ P y := by
  intro l
  induction l with
  | nil => intro x _ hx; exact ⟨x, rfl, hx⟩
  | cons a l ih =>
    intro x h hx
    obtain ⟨y, h1, h2⟩ := h a (by simp) x hx
    obtain ⟨z, g1, g2⟩ := ih y (fun b hb => h b (by simp [hb])) h2
    exact ⟨z, by rw [List.foldlM_cons, h1]; exact g1, g2⟩

/-! ### Exact steps -/

/-- The conditions under which the tables hold the true values and derivatives. They do not depend on the weights. -/
structure ExactNet (N : Net ι XR) (S : ι) (isStack : Bool) : Prop where
  acyclic : Acyclic N.ch
  siblings : SiblingOrdered N.ch S
  inner : N.ch S ≠ []
  sums : ∀ n cs w, N.kind n = .sum cs w → cs ≠ []
  search : GoodSearch N S isStack

theorem ExactNet.of {N N' : Net ι XR} {S : ι} {isStack : Bool} (h : ExactNet N S isStack) (hs : OnlyWeights S N N') : ExactNet N' S isStack := by
  refine ⟨by rw [hs.ch]; exact h.acyclic, by rw [hs.ch]; exact h.siblings, by rw [hs.ch]; exact h.inner, ?_, ?_⟩
  · intro n cs w hk
    obtain ⟨w', h1, _⟩ := hs.sum' hk
    exact h.sums n cs w' h1
  · rcases h.search with ⟨⟨lv, h1⟩, h2⟩ | h1
    · exact Or.inl ⟨⟨lv, fun u hu c hc ht => h1 u (by rw [← hs.ch]; exact hu) c (by rw [← hs.ch]; exact hc) (by rw [← hs.type c]; exact ht)⟩, h2⟩
    · right
      intro u hu u' hu' c hc hc' ht
      rw [hs.ch] at hu hu' hc hc'
      exact h1 u hu u' hu' c hc hc' (by rw [← hs.type c]; exact ht)

/-- Values and derivatives after `StoreInference` and `DeriveSPN` with given tickets. -/
theorem tables_exact {N : Net ι XR} {S : ι} {I : VarSet} {isStack : Bool} (hx : ExactNet N S isStack) (hw : NonnegWeights N S) (hl : LeavesEval N S I) {stk itk : Int} {st : Storer ι XR}
    (ht : TwoTickets stk itk st) :
    ∃ st1 st2, N.storeInference S I itk st = some (some (S, itk), st1) ∧ N.deriveSPN S st1 stk itk isStack = some (stk, st2) ∧
      st2.WF ∧ (∀ k, st2.table k = st.table k) ∧ InferenceStored st2 itk N S (N.prob I) ∧ DerivativesStored st2 stk N S (N.prob I) ∧
      (∀ k, k ≠ itk → k ≠ stk → ∀ n i, st2.entry k n i = st.entry k n i) := by
  have hui : usedTicket st itk = itk := by simp [usedTicket, not_lt.2 ht.nn.2]
  rcases storeInference_core N S I hx.acyclic hx.siblings hx.inner hx.sums st ht.wf itk (Or.inr ht.tabs.2) with ⟨h, _⟩ | ⟨st1, h1, h2, h3, h4⟩
  · obtain ⟨⟨x, hx', _⟩, _⟩ := Net.prob_spec hx.acyclic hw hl (n := S) Relation.ReflTransGen.refl
    rw [h] at hx'; cases hx'
  · rw [hui] at h1 h2 h3
    obtain ⟨r, st1', q1, q2, q3, q4⟩ := storeInference_logs hw hl ht.wf ht.logs
    rw [h1] at q1; simp only [Option.some.injEq, Prod.mk.injEq] at q1
    obtain ⟨_, rfl⟩ := q1
    have hw1 := q2.wf ht.wf
    have hus : usedTicket st1 stk = stk := by simp [usedTicket, not_lt.2 ht.nn.1]
    have hinf : InferenceStored st1 itk N S (N.prob I) := by
      intro n hn
      obtain ⟨⟨x, hx1, hx2, hx3⟩, _⟩ := Net.prob_spec hx.acyclic hw hl hn
      exact ⟨x, by rw [(h2 n hn).1, hx1], hx2, hx3⟩
    have hemp : ∀ n, st1.entry stk n 0 = none := fun n => by rw [h3 stk ht.ne]; exact (ht.empty n 0).1
    obtain ⟨st2, g1, g2, _, g3, g4, _⟩ := C31_deriveSPN_partial N S (N.prob I) hx.acyclic hw (prob_isValuation hx.acyclic hw hl) isStack hx.search st1 hw1 stk itk
      (Or.inr (by rw [q2.table]; exact ht.tabs.1)) (by rw [hus]; exact Ne.symm ht.ne) (fun _ => hemp) hinf
    rw [hus] at g1 g3 g4
    obtain ⟨st2', p1, p2, p3, p4⟩ := deriveSPN_logs (S := S) hw hw1 q3 ht.nn.1 (by rw [q2.table]; exact ht.tabs.1) ht.ne hemp isStack
    rw [g1] at p1; simp only [Option.some.injEq, Prod.mk.injEq, true_and] at p1
    subst p1
    refine ⟨st1, st2, h1, g1, g2, fun k => by rw [p2.table, q2.table], ?_, g3, ?_⟩
    · intro n hn
      obtain ⟨x, e1, e2⟩ := hinf n hn
      exact ⟨x, by rw [g4 itk (Ne.symm ht.ne)]; exact e1, e2⟩
    · intro k hk hk' n i; rw [g4 k hk', h3 k hk]

/-- `StoreInference` with a given, empty ticket: values are stored, tables stay, nothing else changes. -/
theorem store_exact {N : Net ι XR} {S : ι} {I : VarSet} (hac : Acyclic N.ch) (hso : SiblingOrdered N.ch S) (hS : N.ch S ≠ []) (hsum : ∀ n cs w, N.kind n = .sum cs w → cs ≠ [])
    (hw : NonnegWeights N S) (hl : LeavesEval N S I) {itk : Int} {st : Storer ι XR} (hwf : st.WF) (hi : LogsAt itk st) :
    ∃ st1, N.storeInference S I itk st = some (some (S, itk), st1) ∧ SameTables st st1 ∧ LogsAt itk st1 ∧ InferenceStored st1 itk N S (N.prob I) ∧
      (∀ k, k ≠ itk → ∀ n i, st1.entry k n i = st.entry k n i) := by
  have hui : usedTicket st itk = itk := by simp [usedTicket, not_lt.2 hi.nonneg]
  rcases storeInference_core N S I hac hso hS hsum st hwf itk (Or.inr hi.table) with ⟨h, _⟩ | ⟨st1, h1, h2, h3, h4⟩
  · obtain ⟨⟨x, hx', _⟩, _⟩ := Net.prob_spec hac hw hl (n := S) Relation.ReflTransGen.refl
    rw [h] at hx'; cases hx'
  · rw [hui] at h1 h2 h3
    obtain ⟨r, st1', q1, q2, q3, q4⟩ := storeInference_logs hw hl hwf hi
    rw [h1] at q1; simp only [Option.some.injEq, Prod.mk.injEq] at q1
    obtain ⟨_, rfl⟩ := q1
    refine ⟨st1, h1, q2, q3, ?_, h3⟩
    intro n hn
    obtain ⟨⟨x, hx1, hx2, hx3⟩, _⟩ := Net.prob_spec hac hw hl hn
    exact ⟨x, by rw [(h2 n hn).1, hx1], hx2, hx3⟩

/-- `DeriveSPN` on any graph with given tickets: the derivatives accumulated in the order of the search. -/
theorem deriveSPN_run {N : Net ι XR} {S : ι} {p : ι → ℝ} (hw : NonnegWeights N S) {tk itk : Int} {st : Storer ι XR} (hwf : st.WF) (hi : LogsAt itk st) (h0 : 0 ≤ tk)
    (ht : st.table tk ≠ none) (hne : tk ≠ itk) (hemp : ∀ n, st.entry tk n 0 = none) (hinf : InferenceStored st itk N S p) (isStack : Bool) :
    ∃ st', N.deriveSPN S st tk itk isStack = some (tk, st') ∧ (∀ n, Reach N.ch S n → ∃ e, st'.entry tk n 0 = some e ∧ IsLogProb e ∧
      unlog e = (workOrder N.innerCh isStack S).foldl (accStep N p) (fun n => if n = S then 1 else 0) n) ∧ ∀ k, k ≠ tk → ∀ n i, st'.entry k n i = st.entry k n i := by
  obtain ⟨a, ha⟩ := Option.ne_none_iff_exists'.1 ht
  obtain ⟨ai, hai⟩ := Option.ne_none_iff_exists'.1 hi.table
  have hd : ai ≠ a := by rintro rfl; exact hne (hwf.inj _ _ _ ha hai)
  obtain ⟨st1, st2, h1, h2, ⟨l, h3, _⟩, h4, h5, h6⟩ := derive_any (p := p) (S := S) hw hd st
    (fun n => by rw [← entry_tab0 ha]; exact hemp n) (fun n hn => by
      obtain ⟨x, e1, e2, e3⟩ := hinf n hn
      rw [entry_tab0 hai] at e1
      unfold tab0 at e1
      rw [e1]; exact ⟨e2, e3⟩) isStack
  have ha' : st2.table tk = some a := by rw [← ha]; simp only [Storer.table, h3.tables]
  refine ⟨st2, ?_, ?_, (frame_entries hwf ha h3).1⟩
  · unfold Net.deriveSPN newIfNeg
    rw [if_neg (by omega)]
    simp only [ha, hai, h1, Option.bind_some, h2, Option.map_some]
  · intro n hn
    obtain ⟨e, he⟩ := Option.ne_none_iff_exists'.1 ((h6 n).2 hn)
    exact ⟨e, by rw [entry_tab0 ha']; exact he, h4 n e he, by rw [← h5]; simp [cur, he]⟩

theorem prob_leaf {N : Net ι XR} {S : ι} {I : VarSet} (hac : Acyclic N.ch) (hl : LeavesEval N S I) : LeafProbs N S I (N.prob I) := by
  intro n l hn hk
  obtain ⟨x, h1, h2⟩ := hl n l hn hk
  refine ⟨x, h1, h2, ?_⟩
  have : N.value I n = some x := by rw [Net.value_unfold hac]; simp [Net.valueStep, hk, h1]
  simp [Net.prob, this]

/-- One instance of `GenerativeGD` under the conditions of C31. -/
theorem gdInstance_exact {N : Net ι XR} {S : ι} {I : VarSet} {isStack : Bool} (hx : ExactNet N S isStack) (hw : NonnegWeights N S) (hl : LeavesEval N S I) {stk itk : Int}
    {st : Storer ι XR} (ht : TwoTickets stk itk st) (eta : ℝ) (he : 0 ≤ eta) (norm : Bool) (hn : norm = true → DistWeights N S) :
    ∃ (N' : Net ι XR) (st' : Storer ι XR), Net.gdInstance S (.fin eta) stk itk isStack norm (N, st) I = some (N', st') ∧ TwoTickets stk itk st' ∧ AscentStep S eta norm I N N' ∧
      NonnegWeights N' S ∧ (norm = true → DistWeights N' S) := by
  obtain ⟨N', st', h1, h2, h3, h4, h5⟩ := gdInstance_ok hw hl ht eta he isStack norm
  have hsh : OnlyWeights S N N' := h3 (by cases norm with
    | false => exact Or.inl rfl
    | true => exact Or.inr (hn rfl))
  have hne : ∀ n cs w, N'.kind n = .sum cs w → cs ≠ [] := (hx.of hsh).sums
  refine ⟨N', st', h1, h2, ⟨hsh, N.prob I, prob_isValuation hx.acyclic hw hl, prob_leaf hx.acyclic hl, ?_⟩, ?_, fun h => h5 h (hn h)⟩
  · obtain ⟨st1, st2, g1, g2, g3, g4, g5, g6, _⟩ := tables_exact hx hw hl ht
    obtain ⟨N2, q1, _, q3⟩ := C33_apply N S (.fin eta) st2 stk itk isStack norm (by
      intro n hr cs w hk
      obtain ⟨_, r, rfl, hlen, _⟩ := hw n hr cs w hk
      simp [hlen])
    have hN : N2 = N' := by
      simp only [Net.gdInstance, g1, Option.bind_some, g2, q1, Option.map_some, Option.some.injEq, Prod.mk.injEq] at h1
      exact h1.1
    subst hN
    intro n hr cs w hk
    obtain ⟨hcs, r, rfl, hlen, hr0⟩ := hw n hr cs w hk
    obtain ⟨w', e1, e2, e3, _⟩ := q3 n hr cs _ hk
    have hpart : ∀ j (hj : j < r.length), ∃ d, 0 ≤ d ∧ IsWeightPartial N S (N.prob I) n j r[j] d ∧ w'[j]? = some (.fin (r[j] + eta * d)) := by
      intro j hj
      have hc : cs[j]? = some (cs[j]'(by omega)) := List.getElem?_eq_getElem _
      obtain ⟨f1, a, f2, f3⟩ := weight_partial hx.acyclic hw (prob_isValuation hx.acyclic hw hl) g5 g6 (n := n) (j := j) ⟨hr, cs, _, hk, hc⟩
      have ha : a = r[j] := by simpa [Net.weights, hk, hj] using f2.symm
      subst ha
      refine ⟨_, unlog_nonneg' _, f3, ?_⟩
      rw [e3 j _ _ hc (by simp [hj]; rfl)]
      simp only [XR.g_exp, exp_logProb f1]
      simp
    choose! d hd using hpart
    have hw' : w' = ((List.range r.length).map fun j => r.getD j 0 + eta * d j).map XR.fin := by
      apply List.ext_getElem?
      intro i
      by_cases hi : i < r.length
      · rw [(hd i hi).2.2]; simp [hi]
      · rw [List.getElem?_eq_none (by rw [e2]; simp; omega), List.getElem?_eq_none (by simp; omega)]
    refine ⟨r, (List.range r.length).map fun j => r.getD j 0 + eta * d j, rfl, by simp, ?_, ?_⟩
    · rw [e1, hw']
      congr 1
      cases norm with
      | false => rfl
      | true =>
        simp only [if_true]
        have hnn : ∀ x ∈ (List.range r.length).map fun j => r.getD j 0 + eta * d j, 0 ≤ x := by
          intro x hx'
          obtain ⟨j, hj, rfl⟩ := List.mem_map.1 hx'
          rw [List.mem_range] at hj
          have := hr0 r[j] (List.getElem_mem hj)
          have := mul_nonneg he (hd j hj).1
          simp [hj]; linarith
        have hsum : r.sum ≤ ((List.range r.length).map fun j => r.getD j 0 + eta * d j).sum := by
          have e : r = (List.range r.length).map fun j => r.getD j 0 := by
            apply List.ext_getElem (by simp)
            intro i h1 h2; simp [h1]
          conv_lhs => rw [e]
          apply List.sum_le_sum
          intro j hj
          rw [List.mem_range] at hj
          have := mul_nonneg he (hd j hj).1
          linarith
        obtain ⟨r0, w1, _, _, w4⟩ := hn rfl n hr cs _ hk
        have : r0 = r := by
          apply List.map_injective_iff.2 _ w1.symm
          intro a b hab; cases hab; rfl
        subst this
        rw [w4] at hsum
        exact (normalize_nonneg hnn (by linarith)).1
    · intro j a hja
      obtain ⟨hj, rfl⟩ := List.getElem?_eq_some_iff.1 hja
      exact ⟨d j, (hd j hj).2.1, by simp [hj]⟩
  · cases norm with
    | false => exact h4 rfl
    | true =>
      intro n hr cs w hk
      obtain ⟨r, e1, e2, e3, _⟩ := h5 rfl (hn rfl) n hr cs w hk
      exact ⟨hne n cs w hk, r, e1, e2, e3⟩

theorem Spec.AscentRun.append {S : ι} {eta : ℝ} {norm : Bool} {D D' : List VarSet} {N N' N'' : Net ι XR} (h : AscentRun S eta norm D N N') (h' : AscentRun S eta norm D' N' N'') :
    AscentRun S eta norm (D ++ D') N N'' := by
  induction h with
  | nil N => exact h'
  | cons h1 _ ih => exact .cons h1 (ih h')

end Gospn
