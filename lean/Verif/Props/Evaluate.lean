/-
Theorems about evaluation of classifiers: C49, C59, score/score.go.
-/
import Verif.Proofs.Evaluate
import Verif.Props.Semantics
import Verif.Props.Score

set_option linter.unusedSectionVars false
set_option linter.unusedSimpArgs false

namespace Gospn
open Spec GoFloat
variable {ι F : Type} [GoFloat F] [DecidableEq ι] [Fintype ι]

/-! ### Memory -/

theorem evaluateStep_mem {N : Net ι F} {S : ι} {v tk : Int} {L : List Int} {n s : Nat} {grow : Nat → Nat → Nat → Nat} {pick : Nat → ι → Nat → Nat} {x x' : EvalState ι F} {a i : Nat}
    (h : evaluateStep N S v tk L n s grow pick x (a, i) = some x') : ∃ I, x.mem[a]? = some I ∧ x'.mem = x.mem.set a (I.set v (I.get v)) := by
  unfold evaluateStep at h
  split at h
  · cases h
  · obtain ⟨I, hI, h⟩ := Option.bind_eq_some_iff.1 h
    have halt : a < x.mem.length := (List.getElem?_eq_some_iff.1 hI).1
    simp only at hI
    simp only [Mem.delete, Mem.put, hI, Option.map_some, Option.bind_some, List.getElem?_set_self halt] at h
    obtain ⟨r, _, h⟩ := Option.bind_eq_some_iff.1 h
    obtain ⟨e, _, h⟩ := Option.bind_eq_some_iff.1 h
    obtain ⟨sc, _, h⟩ := Option.bind_eq_some_iff.1 h
    rw [Option.some.injEq] at h
    rw [← h]
    exact ⟨I, hI, by simp [del_set]⟩

theorem posteriorStep_mem {N : Net ι F} {S : ι} {v tk : Int} {a : Addr} {pe : F} {y y' : PostState ι F} {j : Nat} {J : VarSet} (hJ : y.mem[a]? = some J) (hv : J v = none)
    (h : posteriorStep N S v tk a pe y j = some y') : y'.mem = y.mem := by
  unfold posteriorStep at h
  have halt : a < y.mem.length := (List.getElem?_eq_some_iff.1 hJ).1
  have hdel : (J.set v (j : Int)).del v = J := by
    rw [set_del]
    funext k
    by_cases hk : k = v
    · subst hk; simp [VarSet.del, hv]
    · simp [VarSet.del, hk]
  simp only [Mem.delete, Mem.put, hJ, Option.map_some, Option.bind_some, List.getElem?_set_self halt] at h
  obtain ⟨r, _, h⟩ := Option.bind_eq_some_iff.1 h
  rw [Option.some.injEq] at h
  have hmem : (y.mem.set a (J.set v (j : Int))).set a J = y.mem := by
    rw [List.set_set]
    apply List.ext_getElem?
    intro i
    rw [List.getElem?_set]
    split
    · rename_i e; subst e; rw [hJ]
    · rfl
  rw [← h, hdel, hmem]
  split <;> rfl

theorem posterior_mem {N : Net ι F} {S : ι} {v tk : Int} {a : Addr} {pe : F} {J : VarSet} (hv : J v = none) : ∀ (js : List Nat) (y y' : PostState ι F), y.mem[a]? = some J →
    js.foldlM (posteriorStep N S v tk a pe) y = some y' → y'.mem = y.mem := by
  intro js
  induction js with
  | nil => intro y y' _ h; simp only [List.foldlM_nil, pure, Option.some.injEq] at h; rw [h]
  | cons j js ih =>
    intro y y' hJ h
    rw [List.foldlM_cons] at h
    obtain ⟨y1, h1, h2⟩ := Option.bind_eq_some_iff.1 h
    have := posteriorStep_mem hJ hv h1
    rw [ih y1 y' (by rw [this]; exact hJ) h2, this]

theorem evaluatePosteriorStep_mem {N : Net ι F} {S : ι} {v cats tk : Int} {L : List Int} {n s : Nat} {grow : Nat → Nat → Nat → Nat} {x x' : EvalState ι F} {a i : Nat}
    (h : evaluatePosteriorStep N S v cats tk L n s grow x (a, i) = some x') : ∃ I, x.mem[a]? = some I ∧ x'.mem = x.mem.set a (I.set v (I.get v)) := by
  unfold evaluatePosteriorStep at h
  split at h
  · cases h
  · obtain ⟨I, hI, h⟩ := Option.bind_eq_some_iff.1 h
    have halt : a < x.mem.length := (List.getElem?_eq_some_iff.1 hI).1
    simp only at hI
    simp only [Mem.delete, hI, Option.map_some, Option.bind_some, List.getElem?_set_self halt] at h
    obtain ⟨r, _, h⟩ := Option.bind_eq_some_iff.1 h
    obtain ⟨y, hy, h⟩ := Option.bind_eq_some_iff.1 h
    have hm := posterior_mem (J := I.del v) (by simp [VarSet.del]) _ _ _ (by simp [halt]) hy
    simp only at hm
    simp only [hm, Mem.put, List.getElem?_set_self halt, Option.map_some] at h
    obtain ⟨e, _, h⟩ := Option.bind_eq_some_iff.1 h
    obtain ⟨sc, _, h⟩ := Option.bind_eq_some_iff.1 h
    rw [Option.some.injEq] at h
    rw [← h]
    exact ⟨I, hI, by simp [del_set]⟩

theorem eval_mem {step : EvalState ι F → Addr × Nat → Option (EvalState ι F)} {v : Int}
    (hstep : ∀ x x' a i, step x (a, i) = some x' → ∃ I, x.mem[a]? = some I ∧ x'.mem = x.mem.set a (I.set v (I.get v))) :
    ∀ (T : List Addr) (i : Nat) (x x' : EvalState ι F), (T.zipIdx i).foldlM step x = some x' →
      ∀ b, x'.mem[b]? = if b ∈ T then (x.mem[b]?).map fun I => I.set v (I.get v) else x.mem[b]? := by
  intro T
  induction T with
  | nil => intro i x x' h b; simp only [List.zipIdx_nil, List.foldlM_nil, pure, Option.some.injEq] at h; simp [h]
  | cons a T ih =>
    intro i x x' h b
    rw [List.zipIdx_cons, List.foldlM_cons] at h
    obtain ⟨x1, h1, h2⟩ := Option.bind_eq_some_iff.1 h
    obtain ⟨I, hI, hm⟩ := hstep x x1 a i h1
    have halt : a < x.mem.length := (List.getElem?_eq_some_iff.1 hI).1
    rw [ih (i + 1) x1 x' h2 b, hm]
    by_cases hb : b = a
    · subst hb
      rw [List.getElem?_set_self halt, hI]
      simp [VarSet.get, VarSet.set, set_set]
    · rw [List.getElem?_set_ne (Ne.symm hb)]
      simp [hb]

/-- C49, memory: whenever `Evaluate` returns, for any network, storage behaviour and labels, every test instance is as before except that the class variable, if it was
absent, is now present with value 0; nothing else in memory has changed. -/
theorem C49_evaluate_memory_partial (N : Net ι F) (S : ι) (v : Int) (s : Nat) (grow : Nat → Nat → Nat → Nat) (pick : Nat → ι → Nat → Nat) (h : Mem) (T : List Addr) (L : List Int)
    (sc : ScoreMem) (x : EvalState ι F) (hx : evaluate N S v s grow pick h T L sc = some x) :
    (∀ b, b ∉ T → x.mem[b]? = h[b]?) ∧ (∀ a ∈ T, ∀ I, h[a]? = some I → (I v).isSome → x.mem[a]? = some I) ∧
    ∀ a ∈ T, ∀ I, h[a]? = some I → I v = none → x.mem[a]? = some (I.set v 0) := by
  have := eval_mem (fun x x' a i => evaluateStep_mem) T 0 _ x hx
  simp only at this
  refine ⟨fun b hb => by rw [this b, if_neg hb], fun a ha I hI hs => ?_, fun a ha I hI hs => ?_⟩
  · rw [this a, if_pos ha, hI, Option.map_some, set_get_self hs]
  · rw [this a, if_pos ha, hI, Option.map_some]
    simp [VarSet.get, hs]

/-- C49, memory, for `EvaluatePosterior`. -/
theorem C49_posterior_memory_partial (N : Net ι F) (S : ι) (v cats : Int) (s : Nat) (grow : Nat → Nat → Nat → Nat) (h : Mem) (T : List Addr) (L : List Int)
    (sc : ScoreMem) (x : EvalState ι F) (hx : evaluatePosterior N S v cats s grow h T L sc = some x) :
    (∀ b, b ∉ T → x.mem[b]? = h[b]?) ∧ (∀ a ∈ T, ∀ I, h[a]? = some I → (I v).isSome → x.mem[a]? = some I) ∧
    ∀ a ∈ T, ∀ I, h[a]? = some I → I v = none → x.mem[a]? = some (I.set v 0) := by
  have := eval_mem (fun x x' a i => evaluatePosteriorStep_mem) T 0 _ x hx
  simp only at this
  refine ⟨fun b hb => by rw [this b, if_neg hb], fun a ha I hI hs => ?_, fun a ha I hI hs => ?_⟩
  · rw [this a, if_pos ha, hI, Option.map_some, set_get_self hs]
  · rw [this a, if_pos ha, hI, Option.map_some]
    simp [VarSet.get, hs]

/-! ### Panics -/

theorem two_none {step : EvalState ι F → Addr × Nat → Option (EvalState ι F)} (hstep : ∀ x a, step x (a, 1) = none) (T : List Addr) (hT : 2 ≤ T.length) (x : EvalState ι F) :
    T.zipIdx.foldlM step x = none := by
  match T, hT with
  | a :: b :: T, _ =>
    rw [List.zipIdx_cons, List.zipIdx_cons, List.foldlM_cons]
    cases step x (a, 0) with
    | none => rfl
    | some x1 =>
      simp only [bind, Option.bind_some]
      rw [List.foldlM_cons, hstep]
      rfl

/-- C49 fails as stated: `Evaluate` and `EvaluatePosterior` panic for every test set of two to nine instances, whatever the network (division by zero in the
progress message). -/
theorem C49_refuted (N : Net ι F) (S : ι) (v cats : Int) (s : Nat) (grow : Nat → Nat → Nat → Nat) (pick : Nat → ι → Nat → Nat) (h : Mem) (T : List Addr) (L : List Int) (sc : ScoreMem)
    (h2 : 2 ≤ T.length) (h9 : T.length ≤ 9) :
    evaluate N S v s grow pick h T L sc = none ∧ evaluatePosterior N S v cats s grow h T L sc = none := by
  have hn : T.length / 10 = 0 := by omega
  constructor
  · unfold evaluate
    rw [hn]
    exact two_none (fun x a => by simp [evaluateStep]) T h2 _
  · unfold evaluatePosterior
    rw [hn]
    exact two_none (fun x a => by simp [evaluatePosteriorStep]) T h2 _

/-! ### Returning, and what is predicted -/

/-- C49, part, and what `Evaluate` predicts: for a test set of no, one or at least ten instances that all contain the class variable and as many labels, and a network on which MAP
inference is right (conditions of C07 and C08: valid, root with children, children listed in order, evidence of positive MAP probability), `Evaluate` returns, leaves memory as it was
and registers with the given score, for each instance and in order, the class in a MAP state of the instance without the class variable. -/
theorem C49_evaluate_partial (N : Net ι XR) (S : ι) (dom : Int → Set Int) (hso : SiblingOrdered N.ch S) (hS : N.ch S ≠ []) (v : Int) (s : Nat) (grow : Nat → Nat → Nat → Nat)
    (pick : Nat → ι → Nat → Nat) (h : Mem) (T : List Addr) (L : List Int) (sc : ScoreMem) (hlen : T.length ≤ 1 ∨ 10 ≤ T.length) (hL : T.length ≤ L.length)
    (hs : s < sc.objs.length)
    (hT : ∀ a ∈ T, ∃ I, h[a]? = some I ∧ (I v).isSome ∧ MapNet N S dom (I.del v) ∧ ∃ r : ℝ, N.max (I.del v) S = some (.fin r)) :
    ∃ (ps : List Int) (x : EvalState ι XR), evaluate N S v s grow pick h T L sc = some x ∧ x.mem = h ∧ ps.length = T.length ∧
      (∀ (k : Nat) (a : Addr) (I : VarSet) (p : Int), T[k]? = some a → h[a]? = some I → ps[k]? = some p → ∃ M, IsMapState N S dom (I.del v) M ∧ p = M.get v) ∧
      ScoreMem.run grow 0 sc ((ps.zip L).map fun q => ScoreOp.register s q.1 q.2) = some x.sc := by
  have key := eval_loop (step := evaluateStep N S v (Storer.new : Storer ι XR).newTicket.1 L (T.length / 10) s grow pick)
    (P := fun I => (I v).isSome ∧ MapNet N S dom (I.del v) ∧ ∃ r : ℝ, N.max (I.del v) S = some (.fin r))
    (Q := fun I p => ∃ M, IsMapState N S dom (I.del v) M ∧ p = M.get v) (tk := (Storer.new : Storer ι XR).newTicket.1) (L := L) (n := T.length / 10) (s := s) (grow := grow) ?_
    T 0 ⟨h, (Storer.new : Storer ι XR).newTicket.2, sc⟩ goodAt_new hT (by simpa using hL) hs (by omega)
  · obtain ⟨ps, x', k1, k2, k3, k4, k5⟩ := key
    exact ⟨ps, x', k3, k4, k1, k2, by simpa using k5⟩
  · rintro x a i I e hg hI ⟨hv, hm, r, hr⟩ he hs hn
    obtain ⟨st', get, g1, g2, g3⟩ := storeMAP_good hm.acyclic hso hS hg (pick i) (by rw [hr]; simp)
    obtain ⟨M, f1, f2, f3, f4, f5⟩ := hm.storeMAP_state (pick := pick i) g2 hr
    rw [f1, Option.map_some] at g3
    obtain ⟨sc', hsc, _⟩ := register_some (grow i) x.sc s hs (M.get v) e
    have halt : a < x.mem.length := (List.getElem?_eq_some_iff.1 hI).1
    refine ⟨M.get v, st'.reset _, sc', ⟨M, ⟨f2, fun w hw y hy => f3 w y hw hy, f4, by rw [f5, hr]⟩, rfl⟩, g1.reset, hsc, ?_⟩
    unfold evaluateStep
    rw [if_neg hn]
    simp only [hI, Option.bind_some, Mem.delete, Option.map_some, List.getElem?_set_self halt, g3, he, Option.getD_some, hsc, Mem.put, del_set, set_get_self hv, List.set_set]
    congr 2
    apply List.ext_getElem?
    intro j
    rw [List.getElem?_set]
    split
    · rename_i e; subst e; rw [hI]
    · rfl

/-- The class found by comparing differences of log-probabilities is the first of those with the greatest probability, if the evidence has positive probability. -/
theorem postClass_spec {val : Nat → XR} {pe : ℝ} : ∀ (js done : List Nat) (acc : XR × Int), (∀ j ∈ js, IsLogProb (val j)) → (∀ j ∈ done, IsLogProb (val j)) →
    ((acc = (.ninf, 0) ∧ ∀ j ∈ done, unlog (val j) = 0) ∨ ∃ j ∈ done, acc = (XR.sub (val j) (.fin pe), (j : Int)) ∧ 0 < unlog (val j) ∧ ∀ i ∈ done, unlog (val i) ≤ unlog (val j)) →
    ((postClass val (.fin pe) js acc = (.ninf, 0) ∧ ∀ j ∈ done ++ js, unlog (val j) = 0) ∨
      ∃ j ∈ done ++ js, postClass val (.fin pe) js acc = (XR.sub (val j) (.fin pe), (j : Int)) ∧ 0 < unlog (val j) ∧ ∀ i ∈ done ++ js, unlog (val i) ≤ unlog (val j)) := by
  intro js
  induction js with
  | nil => intro done acc _ _ h; simpa [postClass] using h
  | cons j js ih =>
    intro done acc h1 h2 h
    have hj := h1 j (by simp)
    have : done ++ j :: js = (done ++ [j]) ++ js := by simp
    rw [this]
    simp only [postClass]
    refine ih (done ++ [j]) _ (fun i hi => h1 i (by simp [hi])) (by
      intro i hi
      rcases List.mem_append.1 hi with hi | hi
      · exact h2 i hi
      · simp only [List.mem_singleton] at hi; rw [hi]; exact hj) ?_
    rcases h with ⟨rfl, h0⟩ | ⟨k, hk, rfl, hpos, hmax⟩
    · cases hvj : val j with
      | nan => rw [hvj] at hj; exact absurd hj (by simp [IsLogProb])
      | pinf => rw [hvj] at hj; exact absurd hj (by simp [IsLogProb])
      | ninf =>
        left
        refine ⟨by simp [XR.sub, XR.lt, XR.add, XR.neg], ?_⟩
        intro i hi
        rcases List.mem_append.1 hi with hi | hi
        · exact h0 i hi
        · simp only [List.mem_singleton] at hi; rw [hi, hvj]; simp [unlog]
      | fin r =>
        right
        refine ⟨j, by simp, ?_, by rw [hvj]; simp [unlog, Real.exp_pos], ?_⟩
        · simp [hvj, XR.sub_fin, XR.lt]
        · intro i hi
          rcases List.mem_append.1 hi with hi | hi
          · rw [h0 i hi, hvj]; simp [unlog, Real.exp_nonneg]
          · simp only [List.mem_singleton] at hi; rw [hi]
    · have hkl := h2 k hk
      cases hvk : val k with
      | nan => rw [hvk] at hkl; exact absurd hkl (by simp [IsLogProb])
      | pinf => rw [hvk] at hkl; exact absurd hkl (by simp [IsLogProb])
      | ninf => rw [hvk] at hpos; simp [unlog] at hpos
      | fin q =>
        right
        cases hvj : val j with
        | nan => rw [hvj] at hj; exact absurd hj (by simp [IsLogProb])
        | pinf => rw [hvj] at hj; exact absurd hj (by simp [IsLogProb])
        | ninf =>
          refine ⟨k, by simp [hk], ?_, hpos, ?_⟩
          · simp [hvk, XR.sub_fin, XR.sub, XR.lt, XR.add, XR.neg]
          · intro i hi
            rcases List.mem_append.1 hi with hi | hi
            · exact hmax i hi
            · simp only [List.mem_singleton] at hi; rw [hi, hvj, hvk]; simp [unlog, Real.exp_nonneg]
        | fin r =>
          by_cases hlt : q < r
          · refine ⟨j, by simp, ?_, by rw [hvj]; simp [unlog, Real.exp_pos], ?_⟩
            · have : q - pe < r - pe := by linarith
              simp [hvj, hvk, XR.sub_fin, XR.lt, this]
            · intro i hi
              rcases List.mem_append.1 hi with hi | hi
              · refine (hmax i hi).trans ?_
                rw [hvj, hvk]
                simpa [unlog] using hlt.le
              · simp only [List.mem_singleton] at hi; rw [hi]
          · refine ⟨k, by simp [hk], ?_, hpos, ?_⟩
            · have : ¬ q - pe < r - pe := by intro h; exact hlt (by linarith)
              simp [hvj, hvk, XR.sub_fin, XR.lt, this]
            · intro i hi
              rcases List.mem_append.1 hi with hi | hi
              · exact hmax i hi
              · simp only [List.mem_singleton] at hi
                rw [hi, hvj, hvk]
                simpa [unlog] using not_lt.1 hlt


theorem postClass_zero {val : Nat → XR} : ∀ (js : List Nat), (∀ j ∈ js, val j = .ninf) → postClass val .ninf js (.ninf, 0) = (.ninf, 0) := by
  intro js
  induction js with
  | nil => intro _; rfl
  | cons j js ih =>
    intro h
    have h2 := ih (fun i hi => h i (by simp [hi]))
    have : lt XR.ninf (sub (val j) XR.ninf) = false := by rw [h j (by simp)]; rfl
    simp only [postClass, this]
    exact h2

/-- Evidence about one more variable does not raise the probability. -/
theorem value_set_le {N : Net ι XR} {S : ι} {dom : Int → Finset Int} {J : VarSet} {v : Int} {j : Int} (hac : Acyclic N.ch) (hcomp : IsComplete N S)
    (hdec : IsDecomposable N S) (hw : NonnegWeights N S) (hl : DiscreteLeaves N S dom) (hJ : InDomain N S (fun v => (dom v : Set Int)) J) (hv : InScope N S v) (hJv : J v = none)
    (hj : j ∈ dom v) : ∃ x y, N.value J S = some x ∧ IsLogProb x ∧ N.value (J.set v j) S = some y ∧ IsLogProb y ∧ unlog y ≤ unlog x := by
  have hJ' : InDomain N S (fun v => (dom v : Set Int)) (J.set v j) := by
    intro w hw x hx
    by_cases e : w = v
    · subst e
      simp only [VarSet.set, if_true, Option.some.injEq] at hx
      rw [← hx]; exact hj
    · simp only [VarSet.set, if_neg e] at hx
      exact hJ w hw x hx
  obtain ⟨x, L, f, a1, a2, a3, a4, a5⟩ := C06_value_marginal_unnormalised N S dom J hac hcomp hdec hw hl hJ
  obtain ⟨y, K, g, b1, b2, b3, b4, b5⟩ := C06_value_marginal_unnormalised N S dom (J.set v j) hac hcomp hdec hw hl hJ'
  refine ⟨x, y, a1, a2, b1, b2, ?_⟩
  have hsub : K ⊆ L := by
    intro M hM
    rw [a3]
    have hM' := (b3 M).1 hM
    intro w
    refine ⟨fun hw => ⟨((hM' w).1 hw).1, fun z hz => ?_⟩, fun hw => ?_⟩
    · refine ((hM' w).1 hw).2 z ?_
      have : w ≠ v := by rintro rfl; rw [hJv] at hz; cases hz
      simp [VarSet.set, this, hz]
    · have : w ≠ v := by rintro rfl; exact hw hv
      rw [(hM' w).2 hw]
      simp [VarSet.set, this]
  rw [a5, b5, Finset.sum_congr rfl (g := fun M => unlog (f M)) (fun M hM => by
    have h1 := (b4 M hM).1
    rw [(a4 M (hsub hM)).1, Option.some.injEq] at h1
    rw [h1])]
  refine Finset.sum_le_sum_of_subset_of_nonneg hsub (fun M _ _ => ?_)
  unfold unlog
  split
  · exact Real.exp_nonneg _
  · exact le_refl _

/-- C59, part, and C49 for `EvaluatePosterior`: for a test set of no, one or at least ten instances that all contain the class variable and as many labels, and a valid discrete
network, `EvaluatePosterior` returns, leaves memory as it was and registers with the given score, for each instance and in order, a class whose probability
together with the rest of the instance is greatest among the classes (hence whose posterior probability is greatest, if the rest of the instance has positive probability).
Missing: test sets of two to nine instances (`C49_refuted`) and networks whose children are not listed in topological order or whose root is a leaf (C04). -/
theorem C59_posterior_partial (N : Net ι XR) (S : ι) (dom : Int → Finset Int) (hac : Acyclic N.ch) (hso : SiblingOrdered N.ch S) (hS : N.ch S ≠ [])
    (hne : ∀ n cs w, N.kind n = .sum cs w → cs ≠ []) (hcomp : IsComplete N S) (hdec : IsDecomposable N S) (hw : NonnegWeights N S) (hl : DiscreteLeaves N S dom)
    (v cats : Int) (hcats : 0 < cats) (hv : InScope N S v) (hdom : ∀ j : Int, 0 ≤ j → j < cats → j ∈ dom v) (s : Nat) (grow : Nat → Nat → Nat → Nat)
    (h : Mem) (T : List Addr) (L : List Int) (sc : ScoreMem) (hlen : T.length ≤ 1 ∨ 10 ≤ T.length) (hL : T.length ≤ L.length) (hs : s < sc.objs.length)
    (hT : ∀ a ∈ T, ∃ I, h[a]? = some I ∧ (I v).isSome ∧ InDomain N S (fun v => (dom v : Set Int)) (I.del v)) :
    ∃ (ps : List Int) (x : EvalState ι XR), evaluatePosterior N S v cats s grow h T L sc = some x ∧ x.mem = h ∧ ps.length = T.length ∧
      (∀ (k : Nat) (a : Addr) (I : VarSet) (p : Int), T[k]? = some a → h[a]? = some I → ps[k]? = some p →
        0 ≤ p ∧ p < cats ∧ ∀ j : Int, 0 ≤ j → j < cats → ∃ y z, N.value (I.set v j) S = some y ∧ N.value (I.set v p) S = some z ∧ unlog y ≤ unlog z) ∧
      ScoreMem.run grow 0 sc ((ps.zip L).map fun q => ScoreOp.register s q.1 q.2) = some x.sc := by
  have key := eval_loop (step := evaluatePosteriorStep N S v cats (Storer.new : Storer ι XR).newTicket.1 L (T.length / 10) s grow)
    (P := fun I => (I v).isSome ∧ InDomain N S (fun v => (dom v : Set Int)) (I.del v))
    (Q := fun I p => 0 ≤ p ∧ p < cats ∧ ∀ j : Int, 0 ≤ j → j < cats → ∃ y z, N.value (I.set v j) S = some y ∧ N.value (I.set v p) S = some z ∧ unlog y ≤ unlog z)
    (tk := (Storer.new : Storer ι XR).newTicket.1) (L := L) (n := T.length / 10) (s := s) (grow := grow) ?_
    T 0 ⟨h, (Storer.new : Storer ι XR).newTicket.2, sc⟩ goodAt_new hT (by simpa using hL) hs (by omega)
  · obtain ⟨ps, x', k1, k2, k3, k4, k5⟩ := key
    exact ⟨ps, x', k3, k4, k1, k2, by simpa using k5⟩
  · rintro x a i I e hg hI ⟨hIv, hdm⟩ he hs hn
    have hdv : I.del v v = none := by simp [VarSet.del]
    have hval : ∀ j : Nat, (j : Int) < cats → ∃ x y, N.value (I.del v) S = some x ∧ IsLogProb x ∧ N.value (I.set v (j : Int)) S = some y ∧ IsLogProb y ∧ unlog y ≤ unlog x := by
      intro j hj
      have := value_set_le hac hcomp hdec hw hl hdm hv hdv (hdom j (by omega) hj)
      simpa only [del_set] using this
    obtain ⟨pe, _, hpe, hpel, _⟩ := hval 0 (by simpa using hcats)
    let val : Nat → XR := fun j => (N.value (I.set v (j : Int)) S).getD .nan
    have hvj : ∀ j : Nat, (j : Int) < cats → N.value (I.set v (j : Int)) S = some (val j) ∧ IsLogProb (val j) ∧ unlog (val j) ≤ unlog pe := by
      intro j hj
      obtain ⟨x, y, e1, _, e3, e4, e5⟩ := hval j hj
      rw [hpe, Option.some.injEq] at e1
      subst e1
      have : val j = y := by simp [val, e3]
      rw [this]
      exact ⟨e3, e4, e5⟩
    have hrange : ∀ j ∈ List.range cats.toNat, (j : Int) < cats := by
      intro j hj
      rw [List.mem_range] at hj
      omega
    have halt : a < x.mem.length := (List.getElem?_eq_some_iff.1 hI).1
    obtain ⟨st1, g1, g2, g3⟩ := storeInference_good hac hso hS hne hg hpe
    obtain ⟨st2, g4, g5⟩ := posterior_loop hac hso hS hne (v := v) (a := a) (pe := pe) hdv (val := val) (List.range cats.toNat)
      ⟨x.mem.set a (I.del v), st1, XR.ninf, 0⟩ g2 (by simp [halt]) (fun j hj => by rw [del_set]; exact (hvj j (hrange j hj)).1)
    simp only at g5
    generalize hpc : postClass val pe (List.range cats.toNat) (XR.ninf, 0) = pc at g5
    obtain ⟨sc', hsc, _⟩ := register_some (grow i) x.sc s hs pc.2 e
    refine ⟨pc.2, st2.reset _, sc', ?_, g4.reset, hsc, ?_⟩
    · have hfin : ∀ p : Nat, (p : Int) < cats → (∀ j ∈ List.range cats.toNat, unlog (val j) ≤ unlog (val p)) →
          0 ≤ (p : Int) ∧ (p : Int) < cats ∧ ∀ j : Int, 0 ≤ j → j < cats → ∃ y z, N.value (I.set v j) S = some y ∧ N.value (I.set v (p : Int)) S = some z ∧ unlog y ≤ unlog z := by
        intro p hp hmax
        refine ⟨by omega, hp, fun j h0 hj => ?_⟩
        obtain ⟨j, rfl⟩ := Int.eq_ofNat_of_zero_le h0
        exact ⟨val j, val p, (hvj j hj).1, (hvj p hp).1, hmax j (by rw [List.mem_range]; omega)⟩
      have hzero : (∀ j ∈ List.range cats.toNat, unlog (val j) = 0) → ∀ j ∈ List.range cats.toNat, unlog (val j) ≤ unlog (val 0) := by
        intro hz j hj
        rw [hz j hj, hz 0 (by rw [List.mem_range]; omega)]
      cases hp : pe with
      | nan => rw [hp] at hpel; exact absurd hpel (by simp [IsLogProb])
      | pinf => rw [hp] at hpel; exact absurd hpel (by simp [IsLogProb])
      | ninf =>
        have hz : ∀ j ∈ List.range cats.toNat, val j = .ninf := by
          intro j hj
          obtain ⟨_, h2, h3⟩ := hvj j (hrange j hj)
          rw [hp] at h3
          cases hv : val j with
          | nan => rw [hv] at h2; exact absurd h2 (by simp [IsLogProb])
          | pinf => rw [hv] at h2; exact absurd h2 (by simp [IsLogProb])
          | ninf => rfl
          | fin r =>
            rw [hv] at h3
            have := Real.exp_pos r
            simp only [unlog] at h3
            linarith
        rw [hp, postClass_zero _ hz] at hpc
        rw [← hpc]
        exact hfin 0 (by simpa using hcats) (hzero (fun j hj => by rw [hz j hj]; rfl))
      | fin r =>
        rw [hp] at hpc
        have := postClass_spec (val := val) (pe := r) (List.range cats.toNat) [] (XR.ninf, 0) (fun j hj => (hvj j (hrange j hj)).2.1) (by simp) (Or.inl ⟨rfl, by simp⟩)
        rw [List.nil_append, hpc] at this
        rcases this with ⟨h1, h2⟩ | ⟨j, hj, h1, _, h3⟩
        · rw [h1]
          exact hfin 0 (by simpa using hcats) (hzero h2)
        · rw [h1]
          exact hfin j (hrange j hj) h3
    · unfold evaluatePosteriorStep
      rw [if_neg hn]
      have hnin : (GoFloat.ninf : XR) = XR.ninf := rfl
      simp only [hI, Option.bind_some, Mem.delete, Option.map_some, List.getElem?_set_self halt, g1, g3, he, Option.getD_some, hnin, g5, hsc, Mem.put, del_set, set_get_self hIv,
        List.set_set]
      congr 2
      apply List.ext_getElem?
      intro j
      rw [List.getElem?_set]
      split
      · rename_i e; subst e; rw [hI]
      · rfl


theorem mixNet_single_domain (v x : Int) : InDomain mixNet 0 (fun v => ((fun _ => {0, 1} : Int → Finset Int) v : Set Int)) ((VarSet.single v x).del v) := by
  intro w _ y hy
  simp only [VarSet.single, VarSet.del] at hy
  split at hy <;> simp at hy

/-- A network, one test instance and its label that meet the hypotheses of `C49_evaluate_partial` and `C59_posterior_partial`. -/
example : SiblingOrdered mixNet.ch 0 ∧ mixNet.ch 0 ≠ [] ∧ InScope mixNet 0 0 ∧ (∀ n cs w, mixNet.kind n = .sum cs w → cs ≠ []) ∧ NonnegWeights mixNet 0 ∧
    (∀ j : Int, 0 ≤ j → j < 2 → j ∈ (fun _ => {0, 1} : Int → Finset Int) 0) ∧
    (∀ a ∈ [0], ∃ I, ([VarSet.single 0 1] : Mem)[a]? = some I ∧ (I 0).isSome ∧ MapNet mixNet 0 (fun _ => {0, 1}) (I.del 0) ∧ ∃ r : ℝ, mixNet.max (I.del 0) 0 = some (.fin r)) ∧
    ∀ a ∈ [0], ∃ I, ([VarSet.single 0 1] : Mem)[a]? = some I ∧ (I 0).isSome ∧ InDomain mixNet 0 (fun v => ((fun _ => {0, 1} : Int → Finset Int) v : Set Int)) (I.del 0) := by
  have hd : (VarSet.single 0 1).del 0 = fun _ => none := by
    funext k; by_cases h : k = 0 <;> simp [VarSet.single, VarSet.del, h]
  refine ⟨mixNet_siblings, by decide, ?_, ?_, mixNet_weights.nonneg, ?_, ?_, ?_⟩
  · exact ⟨3, _, Relation.ReflTransGen.tail (b := 1) (.single (by decide)) (by decide), rfl, rfl⟩
  · intro n cs w h
    fin_cases n <;> simp [mixNet] at h
    rw [← h.1]; simp
  · intro j h0 h2
    have : j = 0 ∨ j = 1 := by omega
    rcases this with rfl | rfl <;> simp
  · intro a ha
    simp only [List.mem_singleton] at ha
    subst ha
    exact ⟨_, rfl, rfl, by rw [hd]; exact mixNet_map _ (fun _ _ _ h => by cases h), by rw [hd]; exact mixNet_positive⟩
  · intro a ha
    simp only [List.mem_singleton] at ha
    subst ha
    exact ⟨_, rfl, rfl, mixNet_single_domain 0 1⟩

end Gospn
