import Verif.Spec.Ascent
import Verif.Proofs.Learn
import Mathlib.Algebra.Order.BigOperators.Group.List
import Mathlib.Algebra.Order.BigOperators.Ring.List
/-
How a gradient step moves the weights and what that does to values.
-/
set_option linter.unusedSectionVars false
set_option linter.unusedSimpArgs false
namespace Gospn
open Spec GoFloat

variable {ι : Type} [DecidableEq ι] [Fintype ι]

theorem wsum_ascent (t : ℝ) (p : ι → ℝ) : ∀ (cs : List ι) (r : List ℝ), r.length = cs.length →
    wsum (List.zipWith (fun c x => x + t * p c) cs r) (cs.map p) = wsum r (cs.map p) + t * (cs.map fun c => p c ^ 2).sum := by
  intro cs
  induction cs with
  | nil => intro r h; simp at h; subst h; simp
  | cons c cs ih =>
    intro r h
    cases r with
    | nil => simp at h
    | cons a r =>
      simp only [List.zipWith_cons_cons, List.map_cons, wsum_cons, List.sum_cons, ih r (by simpa using h)]
      ring

theorem sum_ascent (t : ℝ) (p : ι → ℝ) : ∀ (cs : List ι) (r : List ℝ), r.length = cs.length →
    (List.zipWith (fun c x => x + t * p c) cs r).sum = r.sum + t * (cs.map p).sum := by
  intro cs
  induction cs with
  | nil => intro r h; simp at h; subst h; simp
  | cons c cs ih =>
    intro r h
    cases r with
    | nil => simp at h
    | cons a r =>
      simp only [List.zipWith_cons_cons, List.map_cons, List.sum_cons, ih r (by simpa using h)]
      ring

theorem wsum_div (s : ℝ) : ∀ (r p : List ℝ), wsum (r.map (· / s)) p = wsum r p / s := by
  intro r
  induction r with
  | nil => intro p; simp [wsum]
  | cons a r ih =>
    intro p
    cases p with
    | nil => simp [wsum]
    | cons b p => rw [List.map_cons, wsum_cons, wsum_cons, ih]; ring

theorem wsum_mono_left (p : ι → ℝ) (g : ι → ℝ) : ∀ (cs : List ι) (r : List ℝ), r.length = cs.length → (∀ c ∈ cs, 0 ≤ p c) → (∀ c ∈ cs, 0 ≤ g c) →
    wsum r (cs.map p) ≤ wsum (List.zipWith (fun c x => x + g c) cs r) (cs.map p) := by
  intro cs
  induction cs with
  | nil => intro r h _ _; simp at h; subst h; simp
  | cons c cs ih =>
    intro r h hp hg
    cases r with
    | nil => simp at h
    | cons a r =>
      simp only [List.zipWith_cons_cons, List.map_cons, wsum_cons]
      have h1 := ih r (by simpa using h) (fun c hc => hp c (by simp [hc])) (fun c hc => hg c (by simp [hc]))
      have h2 := mul_nonneg (hg c (by simp)) (hp c (by simp))
      nlinarith

theorem wsum_mono_right (p q : ι → ℝ) : ∀ (cs : List ι) (r : List ℝ), (∀ x ∈ r, 0 ≤ x) → (∀ c ∈ cs, p c ≤ q c) → wsum r (cs.map p) ≤ wsum r (cs.map q) := by
  intro cs
  induction cs with
  | nil => intro r _ _; simp
  | cons c cs ih =>
    intro r hr hpq
    cases r with
    | nil => simp [wsum]
    | cons a r =>
      simp only [List.map_cons, wsum_cons]
      have h1 := ih r (fun x hx => hr x (by simp [hx])) (fun c hc => hpq c (by simp [hc]))
      have h2 := mul_le_mul_of_nonneg_left (hpq c (by simp)) (hr a (by simp))
      linarith

theorem prod_mono_list (p q : ι → ℝ) : ∀ (cs : List ι), (∀ c ∈ cs, 0 ≤ p c) → (∀ c ∈ cs, p c ≤ q c) → 0 ≤ (cs.map p).prod ∧ (cs.map p).prod ≤ (cs.map q).prod := by
  intro cs
  induction cs with
  | nil => intro _ _; simp
  | cons c cs ih =>
    intro hp hpq
    obtain ⟨h1, h2⟩ := ih (fun c hc => hp c (by simp [hc])) (fun c hc => hpq c (by simp [hc]))
    simp only [List.map_cons, List.prod_cons]
    exact ⟨mul_nonneg (hp c (by simp)) h1, mul_le_mul (hpq c (by simp)) h2 h1 (le_trans (hp c (by simp)) (hpq c (by simp)))⟩

theorem prob_nonneg' (N : Net ι XR) (I : VarSet) (n : ι) : 0 ≤ N.prob I n := by
  unfold Net.prob
  cases N.value I n with
  | none => simp
  | some x => simpa using unlog_nonneg' x

/-- If at no sum node the new weights give the old values of the children a smaller average, no node loses. -/
theorem prob_mono {N N' : Net ι XR} {S : ι} {J : VarSet} (hac : Acyclic N.ch) (hs : OnlyWeights S N N') (hw : NonnegWeights N S) (hw' : NonnegWeights N' S) (hl : LeavesEval N S J)
    (h : ∀ n, Reach N.ch S n → ∀ cs (r r' : List ℝ), N.kind n = .sum cs (r.map XR.fin) → N'.kind n = .sum cs (r'.map XR.fin) →
      wsum r (cs.map (N.prob J)) ≤ wsum r' (cs.map (N.prob J))) :
    ∀ n, Reach N.ch S n → N.prob J n ≤ N'.prob J n := by
  obtain ⟨rank, hrank⟩ := id hac
  have hac' : Acyclic N'.ch := by rw [hs.ch]; exact hac
  have hl' := hs.leavesEval hl
  intro n
  induction hn : rank n using Nat.strong_induction_on generalizing n with
  | _ k ih =>
    intro hr
    have hr' : Reach N'.ch S n := by rw [hs.ch]; exact hr
    have ihc : ∀ c ∈ N.ch n, N.prob J c ≤ N'.prob J c := fun c hc => ih (rank c) (by rw [← hn]; exact hrank n c hc) c rfl (Relation.ReflTransGen.tail hr hc)
    obtain ⟨_, p1, p2⟩ := Net.prob_spec hac hw hl hr
    obtain ⟨_, q1, q2⟩ := Net.prob_spec hac' hw' hl' hr'
    cases hk : N.kind n with
    | leaf l =>
      have e : N.value J n = N'.value J n := by rw [Net.value_unfold hac, Net.value_unfold hac']; simp [Net.valueStep, hk, hs.leaf.2 hk]
      simp [Net.prob, e]
    | product cs =>
      have hcs : N.ch n = cs := by simp [Net.ch, hk]
      rw [p1 cs hk, q1 cs (hs.product.2 hk)]
      exact (prod_mono_list _ _ cs (fun c _ => prob_nonneg' _ _ _) (fun c hc => ihc c (by rw [hcs]; exact hc))).2
    | sum cs w =>
      have hcs : N.ch n = cs := by simp [Net.ch, hk]
      obtain ⟨_, r, rfl, _, _⟩ := hw n hr cs w hk
      obtain ⟨w', hk', _⟩ := hs.sum hk
      obtain ⟨_, r', rfl, _, hr0⟩ := hw' n hr' cs w' hk'
      rw [p2 cs r hk, q2 cs r' hk']
      exact le_trans (h n hr cs r r' hk hk') (wsum_mono_right _ _ cs r' hr0 (fun c hc => ihc c (by rw [hcs]; exact hc)))

/-- `DeriveApplyWeights` on tables of logarithms. -/
theorem apply_moves {N : Net ι XR} {S : ι} (hw : NonnegWeights N S) {dtk itk : Int} {st : Storer ι XR} (hd : LogsAt dtk st) (hi : LogsAt itk st) (eta : ℝ) (he : 0 ≤ eta)
    (isStack norm : Bool) (hN : norm = true → DistWeights N S) :
    ∃ N' : Net ι XR, N.deriveApplyWeights S (.fin eta) st dtk itk isStack norm = some N' ∧
      ∀ n, Reach N.ch S n → ∀ cs (r : List ℝ), N.kind n = .sum cs (r.map XR.fin) →
        let r' := List.zipWith (fun c x => x + eta * unlog ((st.entry dtk n 0).getD (ofInt 0)) * unlog ((st.entry itk c 0).getD (ofInt 0))) cs r
        N'.kind n = .sum cs ((if norm then r'.map (· / r'.sum) else r').map XR.fin) := by
  obtain ⟨N', h1, h2, h3⟩ := C33_apply N S (.fin eta) st dtk itk isStack norm (by
    intro n hr cs w hk
    obtain ⟨_, r, rfl, hlen, _⟩ := hw n hr cs w hk
    simp [hlen])
  refine ⟨N', h1, ?_⟩
  intro n hr cs r hk
  obtain ⟨_, r0, hrr, hlen, hr0⟩ := hw n hr cs _ hk
  have : r = r0 := List.map_injective_iff.2 (fun a b h => by simpa using h) hrr
  subst this
  obtain ⟨w', g1, g2, g3, g4⟩ := h3 n hr cs _ hk
  have hg : ∀ c, 0 ≤ eta * unlog ((st.entry dtk n 0).getD (ofInt 0)) * unlog ((st.entry itk c 0).getD (ofInt 0)) :=
    fun c => mul_nonneg (mul_nonneg he (unlog_nonneg' _)) (unlog_nonneg' _)
  have hw' : w' = (List.zipWith (fun c x => x + eta * unlog ((st.entry dtk n 0).getD (ofInt 0)) * unlog ((st.entry itk c 0).getD (ofInt 0))) cs r).map XR.fin := by
    apply List.ext_getElem?
    intro i
    by_cases hi' : i < r.length
    · have hc : cs[i]? = some (cs[i]'(by omega)) := List.getElem?_eq_getElem _
      have hx : r[i]? = some r[i] := List.getElem?_eq_getElem hi'
      rw [g3 i _ _ hc (by simp [hx]; rfl)]
      have hp := add_spec (hi.getD (cs[i]'(by omega))) (hd.getD n)
      simp only [List.getElem?_map, List.getElem?_zipWith, hc, hx, Option.map_some, XR.g_add, XR.g_exp, XR.g_mul]
      rw [exp_logProb hp.1, hp.2]; simp; ring
    · rw [List.getElem?_eq_none (by rw [g2]; simp; omega), List.getElem?_eq_none (by simp; omega)]
  simp only
  rw [g1, hw']
  cases hn : norm with
  | false => rfl
  | true =>
    obtain ⟨r1, hr1, _, _, hs1⟩ := hN hn n hr cs _ hk
    have : r = r1 := List.map_injective_iff.2 (fun a b h => by simpa using h) hr1
    subst this
    have hsum := sum_zipWith_le _ cs r hlen (fun c _ => hg c)
    rw [hs1] at hsum
    simp only [if_true]
    rw [(normalize_nonneg (by
      intro x hx
      obtain ⟨i, hi', rfl⟩ := List.mem_iff_getElem.1 hx
      simp only [List.getElem_zipWith]
      have hir : i < r.length := by simp at hi'; omega
      have := hr0 r[i] (List.getElem_mem hir)
      have := hg (cs[i]'(by omega))
      linarith) (by linarith)).1]

/-- One instance of `GenerativeGD` without normalisation: no node loses, whatever the evidence. -/
theorem gdInstance_grows {N : Net ι XR} {S : ι} {I : VarSet} (hac : Acyclic N.ch) (hw : NonnegWeights N S) (hl : LeavesEval N S I) {stk itk : Int} {st : Storer ι XR} (ht : TwoTickets stk itk st)
    (eta : ℝ) (he : 0 ≤ eta) (isStack : Bool) :
    ∃ (N' : Net ι XR) (st' : Storer ι XR), Net.gdInstance S (.fin eta) stk itk isStack false (N, st) I = some (N', st') ∧ TwoTickets stk itk st' ∧
      OnlyWeights S N N' ∧ NonnegWeights N' S ∧ ∀ J, LeavesEval N S J → ∀ n, Reach N.ch S n → N.prob J n ≤ N'.prob J n := by
  obtain ⟨N', st', k1, k2, k3, k4, _⟩ := gdInstance_ok hw hl ht eta he isStack false
  have hsh := k3 (Or.inl rfl)
  refine ⟨N', st', k1, k2, hsh, k4 rfl, ?_⟩
  obtain ⟨r, st1, h1, h2, h3, h4⟩ := storeInference_logs hw hl ht.wf ht.logs
  have hw1 := h2.wf ht.wf
  obtain ⟨st2, g1, g2, g3, g4⟩ := deriveSPN_logs (S := S) hw hw1 h3 ht.nn.1 (by rw [h2.table]; exact ht.tabs.1) ht.ne
    (fun n => by rw [h4 stk ht.ne]; exact (ht.empty n 0).1) isStack
  have hi : LogsAt itk st2 := ⟨ht.nn.2, by rw [g2.table]; exact h3.table, fun n x hx => h3.logs n x (by rw [← g4 itk (Ne.symm ht.ne)]; exact hx)⟩
  obtain ⟨N2, q1, q2⟩ := apply_moves hw g3 hi eta he isStack false (by simp)
  have hN : N2 = N' := by
    simp only [Net.gdInstance, h1, Option.bind_some, g1, q1, Option.map_some, Option.some.injEq, Prod.mk.injEq] at k1
    exact k1.1
  subst hN
  intro J hJ
  refine prob_mono hac hsh hw (k4 rfl) hJ ?_
  intro n hr cs r r' hk hk'
  have := q2 n hr cs r hk
  rw [hk'] at this
  simp only [Kind.sum.injEq, Bool.false_eq_true, if_false, true_and] at this
  have : r' = _ := List.map_injective_iff.2 (fun a b h => by simpa using h) this
  obtain ⟨_, r0, hrr, hlen, _⟩ := hw n hr cs _ hk
  rw [this]
  exact wsum_mono_left _ _ cs r (by have := congrArg List.length hrr; simp at this; omega) (fun c _ => prob_nonneg' _ _ _)
    (fun c _ => mul_nonneg (mul_nonneg he (unlog_nonneg' _)) (unlog_nonneg' _))

/-- One instance with normalisation: at every sum node the new weights are those of the step, for some slope that is not negative; at the root the slope is one if derivatives are exact. -/
theorem gdInstance_normed {N : Net ι XR} {S : ι} {I : VarSet} {isStack : Bool} (hx : ExactNet N S isStack) (hw : DistWeights N S) (hl : LeavesEval N S I) {stk itk : Int} {st : Storer ι XR}
    (ht : TwoTickets stk itk st) (eta : ℝ) (he : 0 ≤ eta) :
    ∃ (N' : Net ι XR) (st' : Storer ι XR), Net.gdInstance S (.fin eta) stk itk isStack true (N, st) I = some (N', st') ∧ TwoTickets stk itk st' ∧
      OnlyWeights S N N' ∧ DistWeights N' S ∧ ∃ d : ι → ℝ, d S = 1 ∧ (∀ n, 0 ≤ d n) ∧ ∀ n, Reach N.ch S n → ∀ cs (r r' : List ℝ), N.kind n = .sum cs (r.map XR.fin) →
        N'.kind n = .sum cs (r'.map XR.fin) →
        wsum r' (cs.map (N.prob I)) = (wsum r (cs.map (N.prob I)) + eta * d n * (cs.map fun c => N.prob I c ^ 2).sum) / (1 + eta * d n * (cs.map (N.prob I)).sum) := by
  obtain ⟨N', st', k1, k2, k3, _, k5⟩ := gdInstance_ok hw.nonneg hl ht eta he isStack true
  have hsh := k3 (Or.inr hw)
  refine ⟨N', st', k1, k2, hsh, k5 rfl hw, ?_⟩
  obtain ⟨st1, st2, g1, g2, g3, g4, g5, g6, _⟩ := tables_exact hx hw.nonneg hl ht
  have hp := prob_isValuation hx.acyclic hw.nonneg hl
  obtain ⟨r0, st1', h1, h2, h3, h4⟩ := storeInference_logs hw.nonneg hl ht.wf ht.logs
  rw [g1] at h1; simp only [Option.some.injEq, Prod.mk.injEq] at h1
  obtain ⟨_, rfl⟩ := h1
  have hw1 := h2.wf ht.wf
  obtain ⟨st2', f1, f2, f3, f4⟩ := deriveSPN_logs (S := S) hw.nonneg hw1 h3 ht.nn.1 (by rw [h2.table]; exact ht.tabs.1) ht.ne
    (fun n => by rw [h4 stk ht.ne]; exact (ht.empty n 0).1) isStack
  rw [g2] at f1; simp only [Option.some.injEq, Prod.mk.injEq, true_and] at f1
  subst f1
  have hi : LogsAt itk st2 := ⟨ht.nn.2, by rw [f2.table]; exact h3.table, fun n x hx => h3.logs n x (by rw [← f4 itk (Ne.symm ht.ne)]; exact hx)⟩
  obtain ⟨N2, q1, q2⟩ := apply_moves hw.nonneg f3 hi eta he isStack true (fun _ => hw)
  have hN : N2 = N' := by
    simp only [Net.gdInstance, g1, Option.bind_some, g2, q1, Option.map_some, Option.some.injEq, Prod.mk.injEq] at k1
    exact k1.1
  subst hN
  refine ⟨fun n => unlog ((st2.entry stk n 0).getD (ofInt 0)), ?_, fun n => unlog_nonneg' _, ?_⟩
  · obtain ⟨e, e1, e2, e3⟩ := g6 S Relation.ReflTransGen.refl
    obtain ⟨v, hv⟩ := e3.1
    have h1 := e3.2 v hv
    have h2 : (fun x => v x S) = id := by funext x; exact (hv x).1
    rw [h2] at h1
    simp only [e1, Option.getD_some]
    exact h1.unique (hasDerivAt_id _)
  · intro n hr cs r r' hk hk'
    have hq := q2 n hr cs r hk
    rw [hk'] at hq
    simp only [Kind.sum.injEq, if_true, true_and] at hq
    have hq' : r' = _ := List.map_injective_iff.2 (fun a b h => by simpa using h) hq
    obtain ⟨r1, hrr, hlen, hr0, hs1⟩ := hw n hr cs _ hk
    have : r = r1 := List.map_injective_iff.2 (fun a b h => by simpa using h) hrr
    subst this
    have hval : ∀ c ∈ cs, unlog ((st2.entry itk c 0).getD (ofInt 0)) = N.prob I c := by
      intro c hc
      obtain ⟨x, e1, _, e3⟩ := g5 c (Relation.ReflTransGen.tail hr (by simp [Net.ch, hk, hc]))
      rw [e1]; exact e3
    have hz : List.zipWith (fun c x => x + eta * unlog ((st2.entry stk n 0).getD (ofInt 0)) * unlog ((st2.entry itk c 0).getD (ofInt 0))) cs r =
        List.zipWith (fun c x => x + eta * unlog ((st2.entry stk n 0).getD (ofInt 0)) * N.prob I c) cs r := by
      apply List.ext_getElem?
      intro i
      simp only [List.getElem?_zipWith]
      cases hc : cs[i]? with
      | none => rfl
      | some c =>
        cases r[i]? with
        | none => rfl
        | some x => simp only [hval c (List.mem_of_getElem? hc)]
    rw [hq', hz, wsum_div, wsum_ascent _ _ cs r hlen, sum_ascent _ _ cs r hlen, hs1]

end Gospn
