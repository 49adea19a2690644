import Verif.Proofs.Learn
import Verif.Proofs.Data
/-
Lemmas about the batch forms of the learning loops.
-/
set_option linter.unusedSectionVars false
set_option linter.unusedSimpArgs false
namespace Gospn
open Spec GoFloat

section Apply
variable {ι F : Type} [DecidableEq ι]

theorem mapApply_any (f : F → F → F) (m : Int → Option F) : ∀ (ks : List Int) (w : List F), ks.Nodup → (∀ i ∈ ks, m i ≠ none → 0 ≤ i ∧ i < w.length) →
    mapApply f m ks w = some (w.mapIdx fun i x => if (i : Int) ∈ ks then (m i).elim x (f x) else x) := by
  intro ks
  induction ks with
  | nil =>
    intro w _ _
    simp only [mapApply, List.foldlM_nil, List.not_mem_nil, if_false]
    exact congrArg some (List.ext_getElem (by simp) (by simp))
  | cons k ks ih =>
    intro w hnd hb
    rw [List.nodup_cons] at hnd
    unfold mapApply at ih ⊢
    rw [List.foldlM_cons]
    cases hm : m k with
    | none =>
      simp only [Option.elim_none, Option.bind_eq_bind, Option.bind_some]
      rw [ih w hnd.2 (fun i hi => hb i (by simp [hi]))]
      congr 1
      apply List.mapIdx_eq_mapIdx_iff.2
      intro i hi
      by_cases hik : (i : Int) = k
      · simp [hik, hm]
      · simp [hik]
    | some d =>
      obtain ⟨h0, h1⟩ := hb k (by simp) (by simp [hm])
      lift k to ℕ using h0
      have hk : k < w.length := by omega
      simp only [Option.elim_some, goIdx_nat, List.getElem?_eq_getElem hk, Option.map_some, Option.bind_eq_bind, Option.bind_some, Int.toNat_natCast]
      rw [ih _ hnd.2 (by simpa using fun i hi => hb i (by simp [hi]))]
      congr 1
      apply List.ext_getElem (by simp)
      intro i h1 h2
      simp only [List.getElem_mapIdx, List.getElem_set]
      by_cases hik : k = i
      · subst hik; simp [hnd.1, hm]
      · have : (i : Int) ≠ k := by omega
        simp [hik, this]

theorem mapApply_spec (f : F → F → F) (m : Int → Option F) (ks : List Int) (w : List F) (hn : ks.Nodup) (hk : ∀ i, i ∈ ks ↔ m i ≠ none) (hb : ∀ i, m i ≠ none → 0 ≤ i ∧ i < w.length) :
    mapApply f m ks w = some (w.mapIdx fun i x => (m i).elim x (f x)) := by
  rw [mapApply_any f m ks w hn (fun i _ h => hb i h)]
  congr 1
  apply List.mapIdx_eq_mapIdx_iff.2
  intro i hi
  by_cases h : (i : Int) ∈ ks
  · simp [h]
  · have : m i = none := by by_contra h'; exact h ((hk i).2 h')
    simp [h, this]

/-- The weights after `mapApply` on the row of a table. -/
def rowWeights (f : F → F → F) (m : Int → Option F) (w : List F) : List F := w.mapIdx fun i x => (m i).elim x (f x)

variable [GoFloat F]

/-- One round of `applyFast`. -/
theorem fastStep_spec {N : Net ι F} (f : F → F → F) (norm : Bool) {mo : RangeOrder ι F} (ho : RangesAll mo) (t : Nat) (T : Table ι F) (W : ι → List F) (s : ι) (hs : N.type s = .sum)
    (hb : ∀ m, T s = some m → ∀ i, m i ≠ none → 0 ≤ i ∧ i < (W s).length) (hT : T s ≠ none) :
    N.fastStep f norm mo t T W s = some (Function.update W s (if norm then learnNormalize (rowWeights f ((T s).getD fun _ => none) (W s)) else rowWeights f ((T s).getD fun _ => none) (W s))) := by
  obtain ⟨m, hm⟩ := Option.ne_none_iff_exists'.1 hT
  have hfin : {i : Int | m i ≠ none}.Finite := by
    apply Set.Finite.subset (Set.finite_Icc (0 : Int) (W s).length)
    intro i hi
    have := hb m hm i hi
    exact ⟨this.1, by omega⟩
  obtain ⟨h1, h2⟩ := ho.inner t s m hfin
  simp only [Net.fastStep, hs, if_true, hm, Option.getD_some]
  rw [mapApply_spec f m _ _ h1 h2 (hb m hm)]
  rfl

theorem fastFold_spec {N : Net ι F} (f : F → F → F) (norm : Bool) {mo : RangeOrder ι F} (ho : RangesAll mo) (t : Nat) (T : Table ι F) :
    ∀ (l : List ι) (W : ι → List F), l.Nodup → (∀ s ∈ l, T s ≠ none) → (∀ s ∈ l, N.type s = .sum → ∀ m, T s = some m → ∀ i, m i ≠ none → 0 ≤ i ∧ i < (W s).length) →
    ∃ W', l.foldlM (N.fastStep f norm mo t T) W = some W' ∧
      (∀ s ∈ l, N.type s = .sum → W' s = if norm then learnNormalize (rowWeights f ((T s).getD fun _ => none) (W s)) else rowWeights f ((T s).getD fun _ => none) (W s)) ∧
      ∀ s, (s ∉ l ∨ N.type s ≠ .sum) → W' s = W s := by
  intro l
  induction l with
  | nil => intro W _ _ _; exact ⟨W, rfl, by simp, fun _ _ => rfl⟩
  | cons s l ih =>
    intro W hnd hT hb
    rw [List.nodup_cons] at hnd
    by_cases hs : N.type s = .sum
    · have h1 := fastStep_spec f norm ho t T W s hs (hb s (by simp) hs) (hT s (by simp))
      have hl : ∀ s' ∈ l, s' ≠ s := fun s' h e => hnd.1 (e ▸ h)
      obtain ⟨W', g1, g2, g3⟩ := ih (Function.update W s (if norm then learnNormalize (rowWeights f ((T s).getD fun _ => none) (W s)) else rowWeights f ((T s).getD fun _ => none) (W s)))
        hnd.2 (fun s' h => hT s' (by simp [h])) (by
          intro s' h' ht m hm i hi
          rw [Function.update_of_ne (hl s' h')]
          exact hb s' (by simp [h']) ht m hm i hi)
      refine ⟨W', by rw [List.foldlM_cons, h1]; exact g1, ?_, ?_⟩
      · intro s' hs' ht
        rcases List.mem_cons.1 hs' with rfl | h'
        · rw [g3 s' (Or.inl hnd.1), Function.update_self]
        · rw [g2 s' h' ht, Function.update_of_ne (hl s' h')]
      · intro s' hs'
        rcases hs' with h' | h'
        · rw [List.mem_cons, not_or] at h'
          rw [g3 s' (Or.inl h'.2), Function.update_of_ne h'.1]
        · rw [g3 s' (Or.inr h'), Function.update_of_ne (by rintro rfl; exact h' hs)]
    · obtain ⟨W', g1, g2, g3⟩ := ih W hnd.2 (fun s' h => hT s' (by simp [h])) (fun s' h' => hb s' (by simp [h']))
      refine ⟨W', by rw [List.foldlM_cons]; simp only [Net.fastStep, hs, if_false]; exact g1, ?_, ?_⟩
      · intro s' hs' ht
        rcases List.mem_cons.1 hs' with rfl | h'
        · exact absurd ht hs
        · exact g2 s' h' ht
      · intro s' hs'
        rcases hs' with h' | h'
        · exact g3 s' (Or.inl (fun h => h' (by simp [h])))
        · exact g3 s' (Or.inr h')

/-- `applyFastGD` and its like, given a table with entries in range at sum nodes only matter there. -/
theorem applyFast_spec (N : Net ι F) (f : F → F → F) (norm : Bool) {mo : RangeOrder ι F} (ho : RangesAll mo) (t : Nat) (T : Table ι F)
    (hb : ∀ s cs w, N.kind s = .sum cs w → ∀ m, T s = some m → ∀ i, m i ≠ none → 0 ≤ i ∧ i < w.length) :
    ∃ N', N.applyFast f norm mo t T = some N' ∧ (∀ n, (N.type n ≠ .sum ∨ T n = none) → N'.kind n = N.kind n) ∧
      ∀ n cs w m, N.kind n = .sum cs w → T n = some m → N'.kind n = .sum cs (if norm then learnNormalize (rowWeights f m w) else rowWeights f m w) := by
  obtain ⟨h1, h2⟩ := ho.outer t T
  obtain ⟨W', g1, g2, g3⟩ := fastFold_spec (N := N) f norm ho t T (mo.outer t T) N.weights h1 (fun s hs => (h2 s).1 hs) (by
    intro s _ hs m hm i hi
    cases hk : N.kind s with
    | sum cs w => simpa [Net.weights, hk] using hb s cs w hk m hm i hi
    | product cs => simp [Net.type, hk] at hs
    | leaf l => simp [Net.type, hk] at hs)
  refine ⟨N.withWeights W', by simp only [Net.applyFast, g1, Option.map_some], ?_, ?_⟩
  · intro n hn
    have : W' n = N.weights n := g3 n (by
      rcases hn with hn | hn
      · exact Or.inr hn
      · exact Or.inl (fun h => (h2 n).1 h hn))
    cases hk : N.kind n <;> simp [Net.withWeights, hk, this, Net.weights]
  · intro n cs w m hk hm
    have := g2 n ((h2 n).2 (by simp [hm])) (by simp [Net.type, hk])
    simp only [Net.withWeights, hk, this, hm, Option.getD_some]
    simp only [Net.weights, hk]

end Apply

section Batch
variable {ι : Type} [DecidableEq ι] [Fintype ι]

/-- What the ticket `wtk` holds during a block: nothing at first, then at every sum edge the logarithm of the number `g`. -/
structure Batch (N : Net ι XR) (S : ι) (wtk : Int) (st : Storer ι XR) (g : ι → Nat → ℝ) (started : Prop) : Prop where
  nonneg : 0 ≤ wtk
  table : st.table wtk ≠ none
  empty : ¬ started → (∀ n l, st.entry wtk n l = none) ∧ ∀ n j, g n j = 0
  edges : started → ∀ n j c, SumEdge N S n j c → ∃ e, st.entry wtk n j = some e ∧ IsLogProb e ∧ unlog e = g n j
  others : ∀ n (l : Int), (∀ (j : Nat) c, l = j → ¬ SumEdge N S n j c) → st.entry wtk n l = none

/-- One instance of `GenerativeBGD` before the weights are looked at. -/
theorem bgd_accumulate {N : Net ι XR} {S : ι} {I : VarSet} (hw : NonnegWeights N S) (hl : LeavesEval N S I) {stk itk wtk : Int} {st : Storer ι XR} (ht : TwoTickets stk itk st)
    (hs : wtk ≠ stk) (hi : wtk ≠ itk) {g : ι → Nat → ℝ} {started : Prop} (hB : Batch N S wtk st g started) (isStack : Bool) :
    ∃ r1 r2 r3, N.storeInference S I itk st = some r1 ∧ N.deriveSPN S r1.2 stk itk isStack = some r2 ∧ N.deriveWeightsBatch S r2.2 wtk stk itk isStack = some r3 ∧
      TwoTickets stk itk ((r3.2.reset itk).reset stk) ∧
      ∃ d : ι → Nat → ℝ, (∀ n j, 0 ≤ d n j) ∧ Batch N S wtk ((r3.2.reset itk).reset stk) (fun n j => d n j + g n j) True ∧
        (ExactNet N S isStack → ∀ n j c, SumEdge N S n j c → ∃ a, (N.weights n)[j]? = some (.fin a) ∧ IsWeightPartial N S (N.prob I) n j a (d n j)) := by
  obtain ⟨r, st1, h1, h2, h3, h4⟩ := storeInference_logs hw hl ht.wf ht.logs
  have hw1 := h2.wf ht.wf
  obtain ⟨st2, g1, g2, g3, g4⟩ := deriveSPN_logs (S := S) hw hw1 h3 ht.nn.1 (by rw [h2.table]; exact ht.tabs.1) ht.ne
    (fun n => by rw [h4 stk ht.ne]; exact (ht.empty n 0).1) isStack
  have hw2 := g2.wf hw1
  have hil : LogsAt itk st2 := ⟨ht.nn.2, by rw [g2.table]; exact h3.table, fun n x hx => h3.logs n x (by rw [← g4 itk (Ne.symm ht.ne)]; exact hx)⟩
  have hu : usedTicket st2 wtk = wtk := by simp [usedTicket, not_lt.2 hB.nonneg]
  have hwt : st2.table wtk ≠ none := by rw [g2.table, h2.table]; exact hB.table
  obtain ⟨st3, q1, q2, q3, q4, q5, q6⟩ := C32_deriveWeightsBatch N S isStack st2 hw2 wtk stk itk (Or.inr hwt) (by rw [hu]; exact Ne.symm hs) (by rw [hu]; exact Ne.symm hi)
  rw [hu] at q1 q3 q4 q5
  simp only [not_lt.2 hB.nonneg, if_false] at q3 q5
  replace q6 := q6 (not_lt.2 hB.nonneg)
  have hold : ∀ n l, st2.entry wtk n l = st.entry wtk n l := fun n l => by rw [g4 wtk hs, h4 wtk hi]
  have htabs : st3.table stk ≠ none ∧ st3.table itk ≠ none := ⟨by rw [q6]; exact g3.table, by rw [q6]; exact hil.table⟩
  -- the child at an edge
  have hchild : ∀ n j c, SumEdge N S n j c → (N.ch n)[j]? = some c := by
    rintro n j c ⟨_, cs, w, hk, hj⟩; simpa [Net.ch, hk] using hj
  let d : ι → Nat → ℝ := fun n j => ((N.ch n)[j]?).elim 0 fun c => unlog (add ((st2.entry itk c 0).getD (ofInt 0)) ((st2.entry stk n 0).getD (ofInt 0)))
  have hd : ∀ n j c, SumEdge N S n j c → d n j = unlog (add ((st2.entry itk c 0).getD (ofInt 0)) ((st2.entry stk n 0).getD (ofInt 0))) := by
    intro n j c h; simp only [d, hchild n j c h, Option.elim_some]
  have hlog : ∀ n c, IsLogProb (add ((st2.entry itk c 0).getD (ofInt 0)) ((st2.entry stk n 0).getD (ofInt 0))) := fun n c => (add_spec (hil.getD c) (g3.getD n)).1
  have hfin : ∀ n l, ((st3.reset itk).reset stk).entry wtk n l = st3.entry wtk n l := by
    intro n l
    rw [reset_entry (Storer.reset_wf q2 _), if_neg hs, reset_entry q2, if_neg hi]
  refine ⟨(r, st1), (stk, st2), (wtk, st3), h1, g1, q1, twoTickets_reset q2 ht.ne ht.nn htabs, d, ?_, ⟨hB.nonneg, ?_, fun h => absurd trivial h, ?_, ?_⟩, ?_⟩
  · intro n j
    simp only [d]
    cases (N.ch n)[j]? with
    | none => simp
    | some c => exact unlog_nonneg' _
  · exact reset_table _ _ (reset_table _ _ (by rw [q6]; exact hwt))
  · intro _ n j c h
    rw [hfin, q3 n j c h, hold]
    rw [hd n j c h]
    by_cases hst : started
    · obtain ⟨e, e1, e2, e3⟩ := hB.edges hst n j c h
      rw [e1]
      have := logSumExpPair_spec (hlog n c) e2
      exact ⟨_, rfl, this.1, by rw [this.2, e3]⟩
    · obtain ⟨e1, e2⟩ := hB.empty hst
      rw [e1]
      exact ⟨_, rfl, hlog n c, by rw [e2]; ring⟩
  · intro n l h
    rw [hfin, q5 n l h, hold, hB.others n l h]
  · intro hx n j c h
    obtain ⟨st1', st2', a1, a2, _, _, a5, a6, _⟩ := tables_exact hx hw hl ht
    rw [h1] at a1
    simp only [Option.some.injEq, Prod.mk.injEq] at a1
    obtain ⟨_, rfl⟩ := a1
    rw [g1] at a2
    simp only [Option.some.injEq, Prod.mk.injEq, true_and] at a2
    subst a2
    obtain ⟨_, a, f2, f3⟩ := weight_partial hx.acyclic hw (prob_isValuation hx.acyclic hw hl) a5 a6 h
    exact ⟨a, f2, by rw [hd n j c h]; exact f3⟩

/-- Replacing the weights of every sum node below `S` by non-negative numbers, of positive sum where they are normalised. -/
theorem newWeights {N N' : Net ι XR} {S : ι} (hw : NonnegWeights N S) (norm : Bool) (h1 : ∀ n, (¬ Reach N.ch S n ∨ N.type n ≠ .sum) → N'.kind n = N.kind n)
    (h2 : ∀ n, Reach N.ch S n → ∀ cs (r : List ℝ), N.kind n = .sum cs (r.map XR.fin) → r.length = cs.length → (∀ x ∈ r, 0 ≤ x) → ∃ r' : List ℝ, r'.length = r.length ∧ (∀ x ∈ r', 0 ≤ x) ∧
      (norm = true → 0 < r'.sum) ∧ N'.kind n = .sum cs (if norm then learnNormalize (r'.map XR.fin) else r'.map XR.fin)) :
    OnlyWeights S N N' ∧ NonnegWeights N' S ∧ (norm = true → DistWeights N' S) := by
  have h3 : ∀ n, Reach N.ch S n → ∀ cs w, N.kind n = .sum cs w → cs ≠ [] ∧ ∃ r' : List ℝ, r'.length = cs.length ∧ w.length = cs.length ∧ (∀ x ∈ r', 0 ≤ x) ∧ (norm = true → r'.sum = 1) ∧
      N'.kind n = .sum cs (r'.map XR.fin) := by
    intro n hr cs w hk
    obtain ⟨g0, r, rfl, g1, g2⟩ := hw n hr cs w hk
    obtain ⟨r', q1, q2, q3, q4⟩ := h2 n hr cs r hk g1 g2
    refine ⟨g0, ?_⟩
    cases norm with
    | false => exact ⟨r', by rw [q1, g1], by simp [g1], q2, by simp, q4⟩
    | true =>
      obtain ⟨e1, e2, e3⟩ := normalize_nonneg q2 (q3 rfl)
      exact ⟨r'.map (· / r'.sum), by simp [q1, g1], by simp [g1], e2, fun _ => e3, by rw [q4, if_pos rfl, e1]⟩
  have hsh : OnlyWeights S N N' := by
    intro n
    cases hk : N.kind n with
    | product cs => exact (h1 n (Or.inr (by simp [Net.type, hk]))).trans hk
    | leaf l => exact (h1 n (Or.inr (by simp [Net.type, hk]))).trans hk
    | sum cs w =>
      by_cases hr : Reach N.ch S n
      · obtain ⟨_, r', q1, q2, _, _, q5⟩ := h3 n hr cs w hk
        exact ⟨_, q5, by simp [q1, q2], fun h => absurd hr h⟩
      · exact ⟨w, (h1 n (Or.inl hr)).trans hk, rfl, fun _ => rfl⟩
  refine ⟨hsh, ?_, ?_⟩
  · intro n hr cs w hk
    rw [hsh.ch] at hr
    obtain ⟨w0, hk0, _⟩ := hsh.sum' hk
    obtain ⟨g0, r', q1, q2, q3, q4, q5⟩ := h3 n hr cs w0 hk0
    rw [hk] at q5; simp only [Kind.sum.injEq, true_and] at q5
    exact ⟨g0, r', q5, q1, q3⟩
  · intro hn n hr cs w hk
    rw [hsh.ch] at hr
    obtain ⟨w0, hk0, _⟩ := hsh.sum' hk
    obtain ⟨g0, r', q1, q2, q3, q4, q5⟩ := h3 n hr cs w0 hk0
    rw [hk] at q5; simp only [Kind.sum.injEq, true_and] at q5
    exact ⟨r', q5, q1, q3, q4 hn⟩

theorem Storer.WF.row {F : Type} {st : Storer ι F} (h : st.WF) {o : Option Nat} {n : ι} {m : Int → Option F} (hm : st.deref o n = some m) : ∃ i, m i ≠ none := by
  cases o with
  | none => simp [Storer.deref, Table.empty] at hm
  | some a => exact h.ok a n m hm

theorem mapIdx_sum_ge (c : ℝ) : ∀ (r : List ℝ) (f : Nat → ℝ → ℝ), (∀ j a, c * a ≤ f j a) → c * r.sum ≤ (r.mapIdx f).sum := by
  intro r
  induction r with
  | nil => intro f _; simp
  | cons a r ih =>
    intro f h
    simp only [List.mapIdx_cons, List.sum_cons]
    have := ih (fun i => f (i + 1)) (fun j a => h _ a)
    have := h 0 a
    linarith

theorem fin_map_injective {r r' : List ℝ} (h : r.map XR.fin = r'.map XR.fin) : r = r' :=
  List.map_injective_iff.2 (fun a b hab => by cases hab; rfl) h

/-- The weights after a block, given the numbers accumulated. -/
theorem bgd_apply {N : Net ι XR} {S : ι} (hw : NonnegWeights N S) {wtk : Int} {st : Storer ι XR} (hwf : st.WF) {g : ι → Nat → ℝ} (hB : Batch N S wtk st g True) (hg : ∀ n j, 0 ≤ g n j)
    (eta lambda : ℝ) (b : Int) (hb : 0 < b) (he : 0 ≤ eta) (hla : lambda ≤ 1 / 2) (norm : Bool) (hn : norm = true → lambda < 1 / 2 ∧ DistWeights N S) {mo : RangeOrder ι XR} (ho : RangesAll mo) (t : Nat) :
    ∃ N', N.applyFast (gdWeight (.fin eta) (.fin lambda) (ofInt b)) norm mo t (st.deref (st.table wtk)) = some N' ∧ OnlyWeights S N N' ∧ NonnegWeights N' S ∧ (norm = true → DistWeights N' S) ∧
      ∀ n, Reach N.ch S n → ∀ cs w, N.kind n = .sum cs w → ∃ r r' : List ℝ, w = r.map XR.fin ∧ r'.length = r.length ∧
        N'.kind n = .sum cs ((if norm then r'.map (· / r'.sum) else r').map XR.fin) ∧
        ∀ j a, r[j]? = some a → r'[j]? = some (a + eta / b * g n j - 2 * lambda * a) := by
  have hb' : (0 : ℝ) < b := by exact_mod_cast hb
  have hent : ∀ n m, (st.deref (st.table wtk)) n = some m → ∀ i, m i = st.entry wtk n i := by
    intro n m hm i
    rw [← deref_table]; simp [Table.entry, hm]
  obtain ⟨N', h1, h2, h3⟩ := applyFast_spec N (gdWeight (.fin eta) (.fin lambda) (ofInt b)) norm ho t (st.deref (st.table wtk)) (by
    intro s cs w hk m hm i hi
    rw [hent s m hm] at hi
    by_contra hc
    refine hi (hB.others s i ?_)
    rintro j c rfl ⟨hr, cs', w', hk', hj⟩
    rw [hk] at hk'; simp only [Kind.sum.injEq] at hk'
    obtain ⟨rfl, rfl⟩ := hk'
    obtain ⟨_, r, rfl, hlen, _⟩ := hw s hr cs w hk
    have := (List.getElem?_eq_some_iff.1 hj).1
    exact hc ⟨by omega, by simp [hlen]; exact this⟩)
  have hrow : ∀ n, Reach N.ch S n → ∀ cs (r : List ℝ), N.kind n = .sum cs (r.map XR.fin) → r.length = cs.length →
      ∃ m, (st.deref (st.table wtk)) n = some m ∧ rowWeights (gdWeight (.fin eta) (.fin lambda) (ofInt b)) m (r.map XR.fin) =
        (r.mapIdx fun j a => a + eta / b * g n j - 2 * lambda * a).map XR.fin := by
    intro n hr cs r hk hlen
    obtain ⟨hne, _⟩ := hw n hr cs _ hk
    have hedge : ∀ j (hj : j < cs.length), ∃ e, st.entry wtk n j = some e ∧ IsLogProb e ∧ unlog e = g n j :=
      fun j hj => hB.edges trivial n j cs[j] ⟨hr, cs, _, hk, List.getElem?_eq_getElem hj⟩
    have hpos : 0 < cs.length := List.length_pos_iff.2 hne
    cases hm : (st.deref (st.table wtk)) n with
    | none =>
      obtain ⟨e, e1, _⟩ := hedge 0 hpos
      rw [← deref_table] at e1
      simp [Table.entry, hm] at e1
    | some m =>
      refine ⟨m, rfl, ?_⟩
      apply List.ext_getElem (by simp [rowWeights])
      intro j hj1 hj2
      have hj : j < r.length := by simpa using hj2
      obtain ⟨e, e1, e2, e3⟩ := hedge j (by omega)
      simp only [rowWeights, List.getElem_mapIdx, List.getElem_map, hent n m hm, e1, Option.elim_some, gdWeight, XR.g_exp, exp_logProb e2, XR.g_ofInt, XR.g_mul, XR.g_sub, XR.g_add, XR.g_div,
        XR.mul_fin, XR.div_fin hb'.ne', XR.sub_fin, XR.add_fin, e3]
      congr 1
      push_cast
      ring
  have hform : ∀ n, Reach N.ch S n → ∀ cs (r : List ℝ), N.kind n = .sum cs (r.map XR.fin) → r.length = cs.length → (∀ x ∈ r, 0 ≤ x) →
      (∀ x ∈ r.mapIdx fun j a => a + eta / b * g n j - 2 * lambda * a, 0 ≤ x) ∧ (norm = true → 0 < (r.mapIdx fun j a => a + eta / b * g n j - 2 * lambda * a).sum) ∧
      N'.kind n = .sum cs (if norm then learnNormalize ((r.mapIdx fun j a => a + eta / b * g n j - 2 * lambda * a).map XR.fin)
        else (r.mapIdx fun j a => a + eta / b * g n j - 2 * lambda * a).map XR.fin) := by
    intro n hr cs r hk hlen hr0
    have hnn : ∀ j, 0 ≤ eta / b * g n j := fun j => mul_nonneg (div_nonneg he hb'.le) (hg n j)
    refine ⟨?_, ?_, ?_⟩
    · intro x hx
      obtain ⟨j, hj, rfl⟩ := List.mem_iff_getElem.1 hx
      simp only [List.getElem_mapIdx]
      have := hr0 _ (List.getElem_mem (by simpa using hj : j < r.length))
      have := hnn j
      nlinarith
    · intro hnorm
      obtain ⟨hl', hD⟩ := hn hnorm
      obtain ⟨r0, w1, _, _, w4⟩ := hD n hr cs _ hk
      rw [← fin_map_injective w1] at w4
      have : (1 - 2 * lambda) * r.sum ≤ (r.mapIdx fun j a => a + eta / b * g n j - 2 * lambda * a).sum := by
        apply mapIdx_sum_ge
        intro j a
        have := hnn j
        nlinarith
      rw [w4] at this
      linarith
    · obtain ⟨m, m1, m2⟩ := hrow n hr cs r hk hlen
      rw [h3 n cs _ m hk m1, m2]
  obtain ⟨k1, k2, k3⟩ := newWeights (N' := N') hw norm (by
    rintro n (hr | ht')
    · refine h2 n ?_
      by_cases ht' : N.type n = .sum
      · right
        cases hm : (st.deref (st.table wtk)) n with
        | none => rfl
        | some m =>
          exfalso
          obtain ⟨i, hi⟩ := hwf.row hm
          rw [hent n m hm] at hi
          exact hi (hB.others n i (fun j c _ he' => hr he'.1))
      · exact Or.inl ht'
    · exact h2 n (Or.inl ht')) (by
    intro n hr cs r hk hlen hr0
    obtain ⟨f1, f2, f3⟩ := hform n hr cs r hk hlen hr0
    exact ⟨_, by simp, f1, f2, f3⟩)
  refine ⟨N', h1, k1, k2, k3, ?_⟩
  intro n hr cs w hk
  obtain ⟨_, r, rfl, hlen, hr0⟩ := hw n hr cs w hk
  obtain ⟨f1, f2, f3⟩ := hform n hr cs r hk hlen hr0
  refine ⟨r, r.mapIdx fun j a => a + eta / b * g n j - 2 * lambda * a, rfl, by simp, ?_, ?_⟩
  · rw [f3]
    congr 1
    cases norm with
    | false => rfl
    | true => simp only [if_true]; exact (normalize_nonneg f1 (f2 rfl)).1
  · intro j a hj
    simp [hj]

/-- The numbers a block has accumulated so far. -/
def batchSum (ds : List (ι → Nat → ℝ)) (n : ι) (j : Nat) : ℝ := (ds.map fun d => d n j).sum

/-- What holds between two instances of an epoch of `GenerativeBGD` that began with the network `N0`; `done` is what has been seen of the data set. The meaning of the numbers is only claimed if `ex`. -/
structure BState (ex : Prop) (S : ι) (eta lambda : ℝ) (b : Nat) (norm : Bool) (stk itk wtk : Int) (N0 : Net ι XR) (done : List VarSet) (x : (Net ι XR × Storer ι XR) × Int) : Prop where
  shape : OnlyWeights S N0 x.1.1
  weights : NonnegWeights x.1.1 S
  dist : norm = true → DistWeights x.1.1 S
  count : x.2 = done.length
  tickets : TwoTickets stk itk x.1.2
  parts : ∃ (blocks : List (List VarSet)) (cur : List VarSet) (ds : List (ι → Nat → ℝ)), done = blocks.flatten ++ cur ∧ (∀ B ∈ blocks, B.length = b) ∧ cur.length < b ∧
    (ex → BatchRun S eta lambda b norm blocks N0 x.1.1) ∧ Batch x.1.1 S wtk x.1.2 (batchSum ds) (cur ≠ []) ∧ (∀ d ∈ ds, ∀ n j, 0 ≤ d n j) ∧
    List.Forall₂ (fun I d => ex → ∀ n j c, SumEdge x.1.1 S n j c → ∃ a, (x.1.1.weights n)[j]? = some (.fin a) ∧ IsGradient x.1.1 S I n j a (d n j)) cur ds

theorem Spec.BatchRun.append {S : ι} {eta lambda b : ℝ} {norm : Bool} {D D' : List (List VarSet)} {N N' N'' : Net ι XR} (h : BatchRun S eta lambda b norm D N N')
    (h' : BatchRun S eta lambda b norm D' N' N'') : BatchRun S eta lambda b norm (D ++ D') N N'' := by
  induction h with
  | nil N => exact h'
  | cons h1 _ ih => exact .cons h1 (ih h')

/-- Applying what a block has accumulated. -/
theorem bgd_close {ex : Prop} {N : Net ι XR} {S : ι} (hw : NonnegWeights N S) {stk itk wtk : Int} {st : Storer ι XR} (ht : TwoTickets stk itk st) (hs : wtk ≠ stk) (hi : wtk ≠ itk)
    {cur : List VarSet} {ds : List (ι → Nat → ℝ)} (hB : Batch N S wtk st (batchSum ds) True) (hd : ∀ d ∈ ds, ∀ n j, 0 ≤ d n j)
    (hg : List.Forall₂ (fun I d => ex → ∀ n j c, SumEdge N S n j c → ∃ a, (N.weights n)[j]? = some (.fin a) ∧ IsGradient N S I n j a (d n j)) cur ds)
    (eta lambda : ℝ) (b : Nat) (hb : 0 < b) (he : 0 ≤ eta) (hla : lambda ≤ 1 / 2) (norm : Bool) (hl : norm = true → lambda < 1 / 2) (hn : norm = true → DistWeights N S)
    {mo : RangeOrder ι XR} (ho : RangesAll mo) :
    ∃ N', Net.applyReset (gdWeight (.fin eta) (.fin lambda) (ofInt b)) wtk norm mo (N, st) = some (N', st.reset wtk) ∧ OnlyWeights S N N' ∧ NonnegWeights N' S ∧
      (norm = true → DistWeights N' S) ∧ TwoTickets stk itk (st.reset wtk) ∧ Batch N' S wtk (st.reset wtk) (batchSum []) False ∧ (ex → BatchStep S eta lambda b norm cur N N') := by
  obtain ⟨N', h1, h2, h3, h4, h5⟩ := bgd_apply hw ht.wf hB (fun n j => by
    unfold batchSum
    apply List.sum_nonneg
    simp only [List.mem_map, forall_exists_index, and_imp, forall_apply_eq_imp_iff₂]
    exact fun d hd' => hd d hd' n j) eta lambda b (by exact_mod_cast hb) he hla norm (fun h => ⟨hl h, hn h⟩) ho st.next
  refine ⟨N', by simp only [Net.applyReset, h1, Option.map_some], h2, h3, h4, ?_, ?_, ?_⟩
  · refine ⟨Storer.reset_wf ht.wf _, ht.ne, ht.nn, ⟨reset_table _ _ ht.tabs.1, reset_table _ _ ht.tabs.2⟩, ?_⟩
    intro n i
    rw [reset_entry ht.wf, reset_entry ht.wf, if_neg (Ne.symm hs), if_neg (Ne.symm hi)]
    exact ht.empty n i
  · have hz : ∀ n l, (st.reset wtk).entry wtk n l = none := fun n l => by rw [reset_entry ht.wf, if_pos rfl]
    exact ⟨hB.nonneg, reset_table _ _ hB.table, fun _ => ⟨hz, fun _ _ => rfl⟩, fun h => h.elim, fun n l _ => hz n l⟩
  · intro hx
    refine ⟨h2, ?_⟩
    intro n hr cs w hk
    obtain ⟨r, r', q1, q2, q3, q4⟩ := h5 n hr cs w hk
    refine ⟨r, r', q1, q2, q3, ?_⟩
    intro j a hj
    refine ⟨ds.map fun d => d n j, ?_, by rw [q4 j a hj]; rfl⟩
    rw [List.forall₂_map_right_iff]
    refine hg.imp ?_
    intro I d hId
    obtain ⟨_, r0, e0, hlen, _⟩ := hw n hr cs w hk
    have hr0 : r0 = r := fin_map_injective (e0.symm.trans q1)
    subst hr0
    have hjl : j < cs.length := by rw [← hlen]; exact (List.getElem?_eq_some_iff.1 hj).1
    obtain ⟨a', e1, e2⟩ := hId hx n j cs[j] ⟨hr, cs, w, hk, List.getElem?_eq_getElem hjl⟩
    have : a' = a := by
      simp only [Net.weights, hk, q1, List.getElem?_map, hj, Option.map_some, Option.some.injEq, XR.fin.injEq] at e1
      exact e1.symm
    rw [← this]; exact e2

theorem goDvd_nat (n b : Nat) (hb : 0 < b) : goDvd (n : Int) b = some (decide (b ∣ n)) := by
  have : (b : Int) ≠ 0 := by omega
  rw [goDvd, if_neg this]
  congr 1
  rw [Int.tmod_eq_emod_of_nonneg (by omega)]
  simp only [decide_eq_decide]
  rw [← Int.dvd_iff_emod_eq_zero]
  exact_mod_cast Iff.rfl

/-- The instance step keeps the state. -/
theorem bgdInstance_state {ex : Prop} {S : ι} {P : Params XR} {eta lambda : ℝ} (hP : P.lambda = .fin lambda) {b : Nat} (hb : 0 < b) (he : 0 ≤ eta) (hla : lambda ≤ 1 / 2) {norm : Bool}
    (hl : norm = true → lambda < 1 / 2) {stk itk wtk : Int} (hs : wtk ≠ stk) (hi : wtk ≠ itk) {mo : RangeOrder ι XR} (ho : RangesAll mo) {isStack : Bool} {N0 : Net ι XR}
    (hx : ex → ExactNet N0 S isStack) {done : List VarSet} {x : (Net ι XR × Storer ι XR) × Int} (h : BState ex S eta lambda b norm stk itk wtk N0 done x) {I : VarSet} (hI : LeavesEval N0 S I) :
    ∃ y, Net.bgdInstance S P (.fin eta) stk itk wtk isStack norm b mo x I = some y ∧ BState ex S eta lambda b norm stk itk wtk N0 (done ++ [I]) y := by
  obtain ⟨⟨N, st⟩, i⟩ := x
  obtain ⟨hsh, hw, hD, hc, ht, blocks, cur, ds, hdone, hbl, hcur, hrun, hB, hd, hg⟩ := h
  dsimp only at *
  obtain ⟨r1, r2, r3, h1, h2, h3, h4, d, h5, h6, h7⟩ := bgd_accumulate hw (hsh.leavesEval hI) ht hs hi hB isStack
  have hsum : (fun n j => d n j + batchSum ds n j) = batchSum (ds ++ [d]) := by
    funext n j; simp [batchSum]; ring
  rw [hsum] at h6
  have hd' : ∀ d' ∈ ds ++ [d], ∀ n j, 0 ≤ d' n j := by
    intro d' hd'
    rcases List.mem_append.1 hd' with h' | h'
    · exact hd d' h'
    · simp at h'; subst h'; exact h5
  have hg' : List.Forall₂ (fun I d => ex → ∀ n j c, SumEdge N S n j c → ∃ a, (N.weights n)[j]? = some (.fin a) ∧ IsGradient N S I n j a (d n j)) (cur ++ [I]) (ds ++ [d]) := by
    refine List.rel_append hg (.cons ?_ .nil)
    intro hex n j c hse
    have hxN := (hx hex).of hsh
    obtain ⟨a, a1, a2⟩ := h7 hxN n j c hse
    exact ⟨a, a1, N.prob I, prob_isValuation hxN.acyclic hw (hsh.leavesEval hI), prob_leaf hxN.acyclic (hsh.leavesEval hI), a2⟩
  have hlen : done.length = blocks.length * b + cur.length := by
    rw [hdone, List.length_append, List.length_flatten, List.map_congr_left hbl]
    simp
  have hdvd : b ∣ (done.length + 1) ↔ cur.length + 1 = b := by
    rw [hlen, Nat.add_assoc, Nat.dvd_add_right (Nat.dvd_mul_left _ _)]
    constructor
    · intro hdv
      have := Nat.le_of_dvd (by omega) hdv
      omega
    · intro e; rw [e]
  have hgo : goDvd (i + 1) b = some (decide (cur.length + 1 = b)) := by
    rw [hc, ← Nat.cast_succ, goDvd_nat _ _ hb]
    simp only [Nat.succ_eq_add_one, hdvd]
  simp only [Net.bgdInstance, h1, h2, h3, Option.bind_some, hgo, decide_eq_true_eq]
  by_cases hfull : cur.length + 1 = b
  · rw [if_pos hfull, hP]
    obtain ⟨N', q1, q2, q3, q4, q5, q6, q7⟩ := bgd_close (ex := ex) hw h4 hs hi h6 hd' hg' eta lambda b hb he hla norm hl hD ho
    have hcast : (ofInt (b : Int) : XR) = ofInt ((b : Nat) : Int) := rfl
    rw [q1]
    refine ⟨_, rfl, hsh.trans q2, q3, q4, by simp [hc], q5, blocks ++ [cur ++ [I]], [], [], by simp [hdone], ?_, by simpa using hb, ?_, ?_, by simp, .nil⟩
    · intro B hB'
      rcases List.mem_append.1 hB' with h' | h'
      · exact hbl B h'
      · simp at h'; subst h'; simpa using hfull
    · exact fun hex => (hrun hex).append (.cons (q7 hex) (.nil N'))
    · simpa using q6
  · rw [if_neg hfull]
    refine ⟨_, rfl, hsh, hw, hD, by simp [hc], h4, blocks, cur ++ [I], ds ++ [d], by simp [hdone], hbl, by simp; omega, hrun, ?_, hd', hg'⟩
    have : ((cur ++ [I] : List VarSet) ≠ []) = True := by simp
    simpa [this] using h6

theorem bgdFold_state {ex : Prop} {S : ι} {P : Params XR} {eta lambda : ℝ} (hP : P.lambda = .fin lambda) {b : Nat} (hb : 0 < b) (he : 0 ≤ eta) (hla : lambda ≤ 1 / 2) {norm : Bool}
    (hl : norm = true → lambda < 1 / 2) {stk itk wtk : Int} (hs : wtk ≠ stk) (hi : wtk ≠ itk) {mo : RangeOrder ι XR} (ho : RangesAll mo) {isStack : Bool} {N0 : Net ι XR}
    (hx : ex → ExactNet N0 S isStack) : ∀ (data done : List VarSet) (x : (Net ι XR × Storer ι XR) × Int), BState ex S eta lambda b norm stk itk wtk N0 done x → (∀ I ∈ data, LeavesEval N0 S I) →
    ∃ y, data.foldlM (Net.bgdInstance S P (.fin eta) stk itk wtk isStack norm b mo) x = some y ∧ BState ex S eta lambda b norm stk itk wtk N0 (done ++ data) y := by
  intro data
  induction data with
  | nil => intro done x h _; exact ⟨x, rfl, by simpa using h⟩
  | cons I data ih =>
    intro done x h hI
    obtain ⟨y, h1, h2⟩ := bgdInstance_state hP hb he hla hl hs hi ho hx h (hI I (by simp))
    obtain ⟨z, g1, g2⟩ := ih _ y h2 (fun J hJ => hI J (by simp [hJ]))
    exact ⟨z, by rw [List.foldlM_cons, h1]; exact g1, by simpa using g2⟩

/-- What holds between two epochs. -/
structure EState (S : ι) (norm : Bool) (stk itk wtk : Int) (N0 : Net ι XR) (x : Net ι XR × Storer ι XR) : Prop where
  shape : OnlyWeights S N0 x.1
  weights : NonnegWeights x.1 S
  dist : norm = true → DistWeights x.1 S
  tickets : TwoTickets stk itk x.2
  batch : Batch x.1 S wtk x.2 (batchSum []) False

theorem bgdEpoch_state {ex : Prop} {S : ι} {P : Params XR} {eta lambda : ℝ} (hP : P.lambda = .fin lambda) {b : Nat} (hb : 0 < b) (he : 0 ≤ eta) (hla : lambda ≤ 1 / 2) {norm : Bool}
    (hl : norm = true → lambda < 1 / 2) {stk itk wtk : Int} (hs : wtk ≠ stk) (hi : wtk ≠ itk) {mo : RangeOrder ι XR} (ho : RangesAll mo) {isStack : Bool} {N0 : Net ι XR}
    (hx : ex → ExactNet N0 S isStack) (data : List VarSet) (hI : ∀ I ∈ data, LeavesEval N0 S I) {x : Net ι XR × Storer ι XR} (h : EState S norm stk itk wtk N0 x) :
    ∃ y, Net.bgdEpoch S P (.fin eta) stk itk wtk isStack norm b mo data x = some y ∧ EState S norm stk itk wtk N0 y ∧
      (ex → ∃ blocks, IsBlocking b data blocks ∧ BatchRun S eta lambda b norm blocks x.1 y.1) := by
  obtain ⟨N, st⟩ := x
  obtain ⟨⟨⟨N1, st1⟩, i⟩, h1, h2⟩ := bgdFold_state (ex := ex) (P := P) hP hb he hla hl hs hi ho (N0 := N) (fun hex => (hx hex).of h.shape) data [] ((N, st), 0)
    ⟨.refl _ _, h.weights, h.dist, rfl, h.tickets, [], [], [], rfl, by simp, by simpa using hb, fun _ => .nil _, by simpa using h.batch, by simp, .nil⟩
    (fun I hI' => h.shape.leavesEval (hI I hI'))
  obtain ⟨hsh, hw, hD, hc, ht, blocks, cur, ds, hdone, hbl, hcur, hrun, hB, hd, hg⟩ := h2
  simp only [List.nil_append] at hc hdone
  dsimp only at *
  have hlen : data.length = blocks.length * b + cur.length := by
    rw [hdone, List.length_append, List.length_flatten, List.map_congr_left hbl]
    simp
  have hdvd : b ∣ data.length ↔ cur = [] := by
    rw [hlen, Nat.dvd_add_right (Nat.dvd_mul_left _ _)]
    constructor
    · intro hdv
      have := Nat.eq_zero_of_dvd_of_lt hdv hcur
      exact List.length_eq_zero_iff.1 this
    · rintro rfl; simp
  have hgo : goDvd i b = some (decide (cur = [])) := by
    rw [hc, goDvd_nat _ _ hb]; simp only [hdvd]
  have hnb : ∀ B ∈ blocks, B ≠ [] ∧ B.length ≤ b := fun B hB' => ⟨by rintro rfl; have := hbl _ hB'; simp at this; omega, (hbl B hB').le⟩
  simp only [Net.bgdEpoch, h1, Option.bind_some, hgo, decide_eq_true_eq]
  by_cases hcur0 : cur = []
  · subst hcur0
    cases hg
    rw [if_pos rfl]
    refine ⟨_, rfl, ⟨h.shape.trans hsh, hw, hD, ht, by simpa using hB⟩, fun hex => ⟨blocks, ⟨by simpa using hdone.symm, hnb, fun B hB' => hbl B (List.dropLast_subset _ hB')⟩, hrun hex⟩⟩
  · rw [if_neg hcur0, hP]
    have : (cur ≠ []) = True := by simp [hcur0]
    rw [this] at hB
    obtain ⟨N', q1, q2, q3, q4, q5, q6, q7⟩ := bgd_close (ex := ex) hw ht hs hi hB hd hg eta lambda b hb he hla norm hl hD ho
    rw [q1]
    refine ⟨_, rfl, ⟨(h.shape.trans hsh).trans q2, q3, q4, q5, q6⟩, fun hex => ⟨blocks ++ [cur], ⟨by simp [hdone], ?_, by simpa using hbl⟩, (hrun hex).append (.cons (q7 hex) (.nil N'))⟩⟩
    intro B hB'
    rcases List.mem_append.1 hB' with h' | h'
    · exact hnb B h'
    · simp at h'; subst h'; exact ⟨hcur0, hcur.le⟩

end Batch

theorem Spec.IsBlocking.tail {α : Type} {b : Nat} {B : List α} {Bs : List (List α)} (h : IsBlocking b (B ++ Bs.flatten) (B :: Bs)) : IsBlocking b Bs.flatten Bs := by
  refine ⟨rfl, fun C hC => h.2.1 C (by simp [hC]), fun C hC => ?_⟩
  cases Bs with
  | nil => simp at hC
  | cons B' Bs => exact h.2.2 C (by rw [List.dropLast_cons_cons]; exact List.mem_cons_of_mem _ hC)

/-- A list is cut into blocks in only one way. -/
theorem Spec.IsBlocking.unique {α : Type} {b : Nat} : ∀ {Bs Cs : List (List α)} {data : List α}, IsBlocking b data Bs → IsBlocking b data Cs → Bs = Cs := by
  intro Bs
  induction Bs with
  | nil =>
    intro Cs data h h'
    cases Cs with
    | nil => rfl
    | cons C Cs =>
      have := h'.1.trans h.1.symm
      simp at this
      exact absurd this.1 (h'.2.1 C (by simp)).1
  | cons B Bs ih =>
    intro Cs data h h'
    cases Cs with
    | nil =>
      have := h.1.trans h'.1.symm
      simp at this
      exact absurd this.1 (h.2.1 B (by simp)).1
    | cons C Cs =>
      have hlast : ∀ {D : List α} {Ds : List (List α)}, IsBlocking b data (D :: Ds) → D.length ≤ b ∧ D.length + Ds.flatten.length = data.length ∧ (D.length = b ∨ Ds.flatten = []) := by
        intro D Ds hD
        refine ⟨(hD.2.1 D (by simp)).2, by rw [← hD.1]; simp, ?_⟩
        cases Ds with
        | nil => exact Or.inr rfl
        | cons D' Ds => exact Or.inl (hD.2.2 D (by simp))
      obtain ⟨a1, a2, a3⟩ := hlast h
      obtain ⟨c1, c2, c3⟩ := hlast h'
      have hlen : B.length = C.length := by
        rcases a3 with a3 | a3 <;> rcases c3 with c3 | c3
        · omega
        · rw [c3] at c2; simp at c2; omega
        · rw [a3] at a2; simp at a2; omega
        · rw [a3] at a2; rw [c3] at c2; simp at a2 c2; omega
      have heq : B ++ Bs.flatten = C ++ Cs.flatten := by
        have := h.1.trans h'.1.symm
        simpa using this
      obtain ⟨e1, e2⟩ := List.append_inj heq hlen
      subst e1
      have t1 := Spec.IsBlocking.tail (B := B) (Bs := Bs) (by rw [show B ++ Bs.flatten = data by rw [← h.1]; simp]; exact h)
      have t2 := Spec.IsBlocking.tail (B := B) (Bs := Cs) (by rw [show B ++ Cs.flatten = data by rw [← h'.1]; simp]; exact h')
      rw [e2] at t1
      rw [ih t1 t2]

end Gospn
