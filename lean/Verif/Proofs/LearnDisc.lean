import Verif.Spec.LearnDisc
import Verif.Proofs.LearnContrast
import Verif.Props.Discr
import Mathlib.Analysis.SpecialFunctions.Log.Deriv
/-
What the tables of discriminative learning hold at the root, and what its steps make of them.
-/
set_option linter.unusedSectionVars false
set_option linter.unusedSimpArgs false
namespace Gospn
open Spec GoFloat

section Disc
variable {ι : Type} [DecidableEq ι] [Fintype ι]

/-! ### Derivatives with respect to the weights of the root -/

theorem zipWeight_set (p : ι → ℝ) : ∀ (cs : List ι) (r : List ℝ) (j : Nat) (c : ι) (a x : ℝ), cs[j]? = some c → r[j]? = some a →
    (List.zipWith (fun c w => realOf w * p c) cs ((r.map XR.fin).set j (.fin x))).sum = (List.zipWith (fun c w => realOf w * p c) cs (r.map XR.fin)).sum + (x - a) * p c := by
  intro cs
  induction cs with
  | nil => intro r j c a x h; simp at h
  | cons c0 cs ih =>
    intro r j c a x hc ha
    cases r with
    | nil => simp at ha
    | cons a0 r =>
      cases j with
      | zero =>
        simp at hc ha
        subst hc; subst ha
        simp [realOf]; ring
      | succ j =>
        simp only [List.getElem?_cons_succ] at hc ha
        simp only [List.map_cons, List.set_cons_succ, List.zipWith_cons_cons, List.sum_cons, ih r j c a x hc ha]
        ring

/-- The value of the root as a function of one of its weights. -/
theorem rootWeight_affine {N : Net ι XR} {S : ι} {p : ι → ℝ} (hac : Acyclic N.ch) (hp : IsValuation N S p) {cs : List ι} {r : List ℝ} (hk : N.kind S = .sum cs (r.map XR.fin)) {j : Nat} {c : ι} {a : ℝ}
    (hc : cs[j]? = some c) (ha : r[j]? = some a) {v : ℝ → ι → ℝ} (hv : WeightPerturbed N S p S j v) (x : ℝ) : v x S = p S + (x - a) * p c := by
  have hch : N.ch S = cs := by simp [Net.ch, hk]
  obtain ⟨rank, hr⟩ := id hac
  have hconst : ∀ m, Reach N.ch S m → ¬ Reach N.ch m S → v x m = p m := by
    intro m
    induction hm : rank m using Nat.strong_induction_on generalizing m with
    | _ k ih =>
      intro hreach hn
      have hmn : m ≠ S := by rintro rfl; exact hn Relation.ReflTransGen.refl
      rw [hv x m hreach, if_neg hmn]
      refine (nodeValue_congr _ _ ?_).trans (hp m hreach).1.symm
      intro c hc
      rw [kindCh_eq] at hc
      exact ih (rank c) (by rw [← hm]; exact hr m c hc) c rfl (reach_step hreach hc) (fun h => hn (Relation.ReflTransGen.head hc h))
  have hcc : ∀ c ∈ cs, v x c = p c := fun c hc' => hconst c (Relation.ReflTransGen.single (by rw [hch]; exact hc')) (not_reach_parent hac (by rw [hch]; exact hc'))
  have hz : ∀ (cs : List ι) (w : List XR), (∀ c ∈ cs, v x c = p c) → List.zipWith (fun c w => realOf w * v x c) cs w = List.zipWith (fun c w => realOf w * p c) cs w := by
    intro cs
    induction cs with
    | nil => intro w _; rfl
    | cons c cs ih =>
      intro w h
      cases w with
      | nil => rfl
      | cons b w => simp only [List.zipWith_cons_cons, h c (by simp), ih w (fun c hc => h c (by simp [hc]))]
  rw [hv x S Relation.ReflTransGen.refl, if_pos rfl, (hp S Relation.ReflTransGen.refl).1, hk]
  simp only [setWeight, nodeValue]
  rw [hz cs _ hcc, zipWeight_set p cs r j c a x hc ha]

theorem rootWeight_exists {N : Net ι XR} {S : ι} (hac : Acyclic N.ch) (p : ι → ℝ) (n : ι) (j : Nat) : ∃ v, WeightPerturbed N S p n j v := by
  classical
  have hl : ∀ x : ℝ, LocalStep N.ch (fun (f : ι → ℝ) m => nodeValue (if m = n then setWeight (N.kind m) j x else N.kind m) (p m) f) := by
    intro x f g m h
    apply nodeValue_congr
    intro c hc
    apply h
    rw [← kindCh_eq]
    split at hc
    · rwa [setWeight_kindCh] at hc
    · exact hc
  exact ⟨fun x => dagRec (fun f m => nodeValue (if m = n then setWeight (N.kind m) j x else N.kind m) (p m) f) 0, fun x m _ => dagRec_unfold hac (hl x) 0 m⟩

theorem affine_deriv (y a c : ℝ) : HasDerivAt (fun x : ℝ => y + (x - a) * c) c a := by
  have := (((hasDerivAt_id a).sub_const a).mul_const c).const_add y
  simpa using this

theorem root_isGradient {N : Net ι XR} {S : ι} {I : VarSet} (hac : Acyclic N.ch) (hw : NonnegWeights N S) (hl : LeavesEval N S I) {cs : List ι} {r : List ℝ} (hk : N.kind S = .sum cs (r.map XR.fin))
    {j : Nat} {c : ι} {a : ℝ} (hc : cs[j]? = some c) (ha : r[j]? = some a) : IsGradient N S I S j a (N.prob I c) := by
  have hp := prob_isValuation hac hw hl
  refine ⟨N.prob I, hp, prob_leaf hac hl, rootWeight_exists hac _ _ _, fun v hv => ?_⟩
  have : (fun x => v x S) = fun x => N.prob I S + (x - a) * N.prob I c := funext fun x => rootWeight_affine hac hp hk hc ha hv x
  rw [this]
  exact affine_deriv _ _ _

theorem root_isCondGradient {N : Net ι XR} {S : ι} {Y : List Int} {I : VarSet} (hac : Acyclic N.ch) (hw : NonnegWeights N S) (hl : LeavesEval N S I) (hl' : LeavesEval N S (hide Y I)) {cs : List ι}
    {r : List ℝ} (hk : N.kind S = .sum cs (r.map XR.fin)) (h0 : 0 < N.prob I S) (h0' : 0 < N.prob (hide Y I) S) {j : Nat} {c : ι} {a : ℝ} (hc : cs[j]? = some c) (ha : r[j]? = some a) :
    IsCondGradient N S Y I S j a (N.prob I c / N.prob I S - N.prob (hide Y I) c / N.prob (hide Y I) S) := by
  have hp := prob_isValuation hac hw hl
  have hp' := prob_isValuation hac hw hl'
  refine ⟨N.prob I, N.prob (hide Y I), ⟨hp, prob_leaf hac hl, h0⟩, ⟨hp', prob_leaf hac hl', h0'⟩, ?_, ?_⟩
  · obtain ⟨v, hv⟩ := rootWeight_exists (S := S) hac (N.prob I) S j
    obtain ⟨v', hv'⟩ := rootWeight_exists (S := S) hac (N.prob (hide Y I)) S j
    exact ⟨v, v', hv, hv'⟩
  · intro v v' hv hv'
    have e : (fun x => Real.log (v x S) - Real.log (v' x S)) = fun x => Real.log (N.prob I S + (x - a) * N.prob I c) - Real.log (N.prob (hide Y I) S + (x - a) * N.prob (hide Y I) c) :=
      funext fun x => by rw [rootWeight_affine hac hp hk hc ha hv x, rootWeight_affine hac hp' hk hc ha hv' x]
    rw [e]
    have h1 := (affine_deriv (N.prob I S) a (N.prob I c)).log (by simpa using h0.ne')
    have h2 := (affine_deriv (N.prob (hide Y I) S) a (N.prob (hide Y I) c)).log (by simpa using h0'.ne')
    have h3 := h1.fun_sub h2
    simp only [sub_self, zero_mul, add_zero] at h3
    exact h3

/-! ### The tables -/

/-- The networks on which the tables are as meant. -/
structure RootNet (N : Net ι XR) (S : ι) : Prop where
  acyclic : Acyclic N.ch
  siblings : SiblingOrdered N.ch S
  inner : N.ch S ≠ []
  sums : ∀ n cs w, N.kind n = .sum cs w → cs ≠ []
  root : N.type S = .sum

/-- A ticket whose table is there and empty. -/
structure Blank (k : Int) (st : Storer ι XR) : Prop where
  nonneg : 0 ≤ k
  table : st.table k ≠ none
  empty : ∀ n i, st.entry k n i = none

theorem Blank.same {k : Int} {st st' : Storer ι XR} (h : Blank k st) (ht : st'.table k = st.table k) (he : ∀ n i, st'.entry k n i = st.entry k n i) : Blank k st' :=
  ⟨h.nonneg, by rw [ht]; exact h.table, fun n i => by rw [he]; exact h.empty n i⟩

/-- What the value and weight tables of the instance `I` hold at the root. -/
structure RootTables (N : Net ι XR) (S : ι) (I : VarSet) (cs : List ι) (s w : Int) (st : Storer ι XR) : Prop where
  value : ∃ v, st.entry s S 0 = some v ∧ IsLogProb v ∧ unlog v = N.prob I S
  rest : ∀ i, i ≠ 0 → st.entry s S i = none
  weights : ∀ (j : Nat) c, cs[j]? = some c → ∃ e, st.entry w S j = some e ∧ IsLogProb e ∧ unlog e = N.prob I c

theorem RootTables.same {N : Net ι XR} {S : ι} {I : VarSet} {cs : List ι} {s w : Int} {st st' : Storer ι XR} (h : RootTables N S I cs s w st)
    (hs : ∀ n i, st'.entry s n i = st.entry s n i) (hw : ∀ n i, st'.entry w n i = st.entry w n i) : RootTables N S I cs s w st' :=
  ⟨by rw [hs]; exact h.value, fun i hi => by rw [hs]; exact h.rest i hi, fun j c hc => by rw [hw]; exact h.weights j c hc⟩

theorem accStep_root {N : Net ι XR} {S : ι} (hac : Acyclic N.ch) (p : ι → ℝ) : ∀ (l : List ι) (g : ι → ℝ), (∀ n ∈ l, Reach N.ch S n) → l.foldl (accStep N p) g S = g S := by
  intro l
  induction l with
  | nil => intro g _; rfl
  | cons s l ih =>
    intro g h
    rw [List.foldl_cons, ih _ (fun n hn => h n (by simp [hn]))]
    have : S ∉ N.ch s := fun hc => not_reach_parent hac hc (h s (by simp))
    simp [accStep, edgeCoef_zero this]

theorem disc_half {N : Net ι XR} {S : ι} {I : VarSet} (hN : RootNet N S) (hw : NonnegWeights N S) (hl : LeavesEval N S I) {cs : List ι} {ws : List XR} (hk : N.kind S = .sum cs ws) {s d w : Int}
    (hsd : s ≠ d) (hsw : s ≠ w) (hdw : d ≠ w) {st : Storer ι XR} (hwf : st.WF) (hs : Blank s st) (hd : Blank d st) (hw' : Blank w st) :
    ∃ a1 st1 a2 st2 a3 st3, N.storeInference S I s st = some (a1, st1) ∧ N.deriveSPN S st1 d s false = some (a2, st2) ∧ N.deriveWeights S st2 w d s false = some (a3, st3) ∧ st3.WF ∧
      (∀ k, st3.table k = st.table k) ∧ (∀ k, k ≠ s → k ≠ d → k ≠ w → ∀ n i, st3.entry k n i = st.entry k n i) ∧ RootTables N S I cs s w st3 := by
  have hi : LogsAt s st := ⟨hs.nonneg, hs.table, fun n x hx => by rw [hs.empty] at hx; cases hx⟩
  obtain ⟨st1, a1, a2, a3, a4, a5⟩ := store_exact hN.acyclic hN.siblings hN.inner hN.sums hw hl hwf hi
  have hus : usedTicket st s = s := by simp [usedTicket, not_lt.2 hs.nonneg]
  have hrest : ∀ i, i ≠ 0 → st1.entry s S i = none := by
    intro i hi0
    rcases storeInference_core N S I hN.acyclic hN.siblings hN.inner hN.sums st hwf s (Or.inr hs.table) with ⟨h, h'⟩ | ⟨st1', h1, _, _, h4⟩
    · rw [a1] at h'; cases h'
    · rw [a1] at h1
      simp only [Option.some.injEq, Prod.mk.injEq] at h1
      rw [h1.2, ← hus, h4 S i (Or.inr hi0), if_neg (not_lt.2 hs.nonneg), hs.empty]
  have hwf1 := a2.wf hwf
  have hd1 : Blank d st1 := hd.same (a2.table d) (a5 d (Ne.symm hsd))
  obtain ⟨st2, b1, b2, b3⟩ := deriveSPN_run (p := N.prob I) hw hwf1 a3 hd1.nonneg hd1.table (Ne.symm hsd) (fun n => hd1.empty n 0) a4 false
  obtain ⟨st2', c1, c2, c3, c4⟩ := deriveSPN_logs hw hwf1 a3 hd1.nonneg hd1.table (Ne.symm hsd) (fun n => hd1.empty n 0) false
  rw [b1] at c1
  simp only [Option.some.injEq, Prod.mk.injEq, true_and] at c1
  subst c1
  have hwf2 := c2.wf hwf1
  have hw2 : Blank w st2 := hw'.same ((c2.table w).trans (a2.table w)) (fun n i => by rw [b3 w (Ne.symm hdw), a5 w (Ne.symm hsw)])
  have huw : usedTicket st2 w = w := by simp [usedTicket, not_lt.2 hw2.nonneg]
  obtain ⟨st3, e1, e2, e3, e4, e5, e6⟩ := C32_deriveWeights N S false st2 hwf2 w d s (Or.inr hw2.table) (by rw [huw]; exact hdw) (by rw [huw]; exact hsw)
  rw [huw] at e1 e3 e4 e5
  refine ⟨_, st1, _, st2, _, st3, a1, b1, e1, e2, ?_, ?_, ?_⟩
  · intro k; rw [e6 (not_lt.2 hw2.nonneg), c2.table, a2.table]
  · intro k k1 k2 k3 n i; rw [e4 k k3, b3 k k2, a5 k k1]
  · refine ⟨?_, ?_, ?_⟩
    · obtain ⟨x, x1, x2, x3⟩ := a4 S Relation.ReflTransGen.refl
      exact ⟨x, by rw [e4 s hsw, b3 s hsd, x1], x2, x3⟩
    · intro i hi0; rw [e4 s hsw, b3 s hsd, hrest i hi0]
    · intro j c hc
      have hch : N.ch S = cs := by simp [Net.ch, hk]
      have hrc : Reach N.ch S c := Relation.ReflTransGen.single (by rw [hch]; exact List.mem_of_getElem? hc)
      obtain ⟨x, x1, x2, x3⟩ := a4 c hrc
      obtain ⟨y, y1, y2, y3⟩ := b2 S Relation.ReflTransGen.refl
      rw [accStep_root hN.acyclic _ _ _ (fun n hn => innerReach_sub (((workOrder_lists N.innerCh false S).2 n).1 hn)), if_pos rfl] at y3
      refine ⟨_, e3 S j c ⟨Relation.ReflTransGen.refl, cs, ws, hk, hc⟩, ?_⟩
      rw [b3 s hsd, x1, y1]
      obtain ⟨z1, z2⟩ := add_spec x2 y2
      exact ⟨z1, by rw [XR.g_add, Option.getD_some, Option.getD_some, z2, y3, x3, mul_one]⟩

/-- What the instance `I` adds to the weight of the edge to `c`, number `j` of the root. -/
noncomputable def rootGain (N : Net ι XR) (S : ι) (Y : List Int) (I : VarSet) (j : Nat) (c : ι) : ℝ :=
  if j = 0 then N.prob I c / N.prob I S - N.prob (hide Y I) c / N.prob (hide Y I) S else N.prob I c - N.prob (hide Y I) c

/-- What is asked of an instance. -/
structure RootInst (N : Net ι XR) (S : ι) (Y : List Int) (I : VarSet) : Prop where
  full : LeavesEval N S I
  hidden : LeavesEval N S (hide Y I)
  restored : CanRestore Y I

theorem rootGain_spec {N : Net ι XR} {S : ι} {Y : List Int} {I : VarSet} (hac : Acyclic N.ch) (hw : NonnegWeights N S) (hI : RootInst N S Y I) {cs : List ι}
    {r : List ℝ} (hk : N.kind S = .sum cs (r.map XR.fin)) (h0 : 0 < N.prob I S) (h0' : 0 < N.prob (hide Y I) S) {j : Nat} {c : ι} {a : ℝ} (hc : cs[j]? = some c) (ha : r[j]? = some a) :
    IsRootGain N S Y I j a (rootGain N S Y I j c) := by
  constructor
  · rintro rfl
    simpa [rootGain] using root_isCondGradient hac hw hI.full hI.hidden hk h0 h0' hc ha
  · intro hj
    exact ⟨_, _, root_isGradient hac hw hI.full hk hc ha, root_isGradient hac hw hI.hidden hk hc ha, by simp [rootGain, hj]⟩

/-- The six tickets of an instance. -/
structure Six (s d w z p u : Int) (st : Storer ι XR) : Prop where
  wf : st.WF
  distinct : [s, d, w, z, p, u].Nodup
  blank : ∀ k ∈ [s, d, w, z, p, u], Blank k st

theorem disc_tables {N : Net ι XR} {S : ι} {Y : List Int} {I : VarSet} (hN : RootNet N S) (hw : NonnegWeights N S) (hI : RootInst N S Y I) {cs : List ι} {ws : List XR} (hk : N.kind S = .sum cs ws)
    {s d w z p u : Int} {st : Storer ι XR} (h6 : Six s d w z p u st) :
    ∃ st', N.dgdTables S Y s d w z p u st I = some (st', pullValues I Y) ∧ st'.WF ∧ (∀ k, st'.table k = st.table k) ∧ (∀ k, k ∉ [s, d, w, z, p, u] → ∀ n i, st'.entry k n i = st.entry k n i) ∧
      RootTables N S I cs s w st' ∧ RootTables N S (hide Y I) cs z u st' := by
  obtain ⟨hwf, hd, hb⟩ := h6
  simp only [List.nodup_cons, List.mem_cons, List.not_mem_nil, or_false, not_or, List.nodup_nil, and_true, not_false_eq_true] at hd
  obtain ⟨⟨d1, d2, d3, d4, d5⟩, ⟨d6, d7, d8, d9⟩, ⟨d10, d11, d12⟩, ⟨d13, d14⟩, d15⟩ := hd
  obtain ⟨_, st1, _, st2, _, st3, a1, a2, a3, a4, a5, a6, a7⟩ := disc_half hN hw hI.full hk d1 d2 d6 hwf (hb s (by simp)) (hb d (by simp)) (hb w (by simp))
  have hb3 : ∀ k ∈ [z, p, u], Blank k st3 := by
    intro k hk'
    refine (hb k (by simp at hk' ⊢; tauto)).same (a5 k) (a6 k ?_ ?_ ?_) <;>
    · rintro rfl
      simp at hk'
      tauto
  obtain ⟨_, st4, _, st5, _, st6, b1, b2, b3, b4, b5, b6, b7⟩ := disc_half hN hw hI.hidden hk d13 d14 d15 a4 (hb3 z (by simp)) (hb3 p (by simp)) (hb3 u (by simp))
  refine ⟨st6, ?_, b4, fun k => (b5 k).trans (a5 k), ?_, a7.same (b6 s d3 d4 d5) (b6 w d10 d11 d12), b7⟩
  · rw [hide_eq] at b1
    simp only [Net.dgdTables, a1, a2, a3, b1, b2, b3, Option.bind_some, Option.map_some]
  · intro k hk' n i
    simp only [List.mem_cons, List.not_mem_nil, or_false, not_or] at hk'
    rw [b6 k hk'.2.2.2.1 hk'.2.2.2.2.1 hk'.2.2.2.2.2, a6 k hk'.1 hk'.2.1 hk'.2.2.1]

/-- The difference of exponentials in `applyDGD` and `storeDGD`. -/
theorem gain_exp {N : Net ι XR} {S : ι} {Y : List Int} {I : VarSet} {cs : List ι} {s w z u : Int} {st : Storer ι XR} (h : RootTables N S I cs s w st) (h' : RootTables N S (hide Y I) cs z u st)
    (h0 : 0 < N.prob I S) (h0' : 0 < N.prob (hide Y I) S) {j : Nat} {c : ι} (hc : cs[j]? = some c) :
    (sub (exp (sub ((st.entry w S j).getD (ofInt 0)) ((st.entry s S j).getD (ofInt 0)))) (exp (sub ((st.entry u S j).getD (ofInt 0)) ((st.entry z S j).getD (ofInt 0)))) : XR) =
      .fin (rootGain N S Y I j c) := by
  obtain ⟨e, e1, e2, e3⟩ := h.weights j c hc
  obtain ⟨e', e1', e2', e3'⟩ := h'.weights j c hc
  obtain ⟨v, v1, v2, v3⟩ := h.value
  obtain ⟨v', v1', v2', v3'⟩ := h'.value
  have hfin : ∀ {v : XR} {x : ℝ}, IsLogProb v → unlog v = x → 0 < x → ∃ y, v = .fin y ∧ Real.exp y = x := by
    intro v x hv hx h0
    rcases IsLogProb.cases hv with rfl | ⟨y, rfl⟩
    · simp at hx; exact absurd hx h0.ne
    · exact ⟨y, rfl, by simpa using hx⟩
  have hexp : ∀ (e : XR) (v : ℝ), IsLogProb e → XR.exp (XR.sub e (.fin v)) = .fin (unlog e / Real.exp v) := by
    intro e v h
    rcases IsLogProb.cases h with rfl | ⟨r, rfl⟩ <;> simp [Real.exp_sub]
  obtain ⟨y, rfl, y2⟩ := hfin v2 v3 h0
  obtain ⟨y', rfl, y2'⟩ := hfin v2' v3' h0'
  by_cases hj : j = 0
  · subst hj
    simp only [Nat.cast_zero] at e1 e1' ⊢
    simp only [e1, e1', v1, v1', Option.getD_some, XR.g_sub, XR.g_exp, hexp _ _ e2, hexp _ _ e2', XR.sub_fin, e3, e3', y2, y2', rootGain, if_true]
  · have hj' : (j : Int) ≠ 0 := by exact_mod_cast hj
    simp only [e1, e1', h.rest _ hj', h'.rest _ hj', Option.getD_some, Option.getD_none, XR.g_ofInt, Int.cast_zero, XR.g_sub, XR.g_exp, hexp _ _ e2, hexp _ _ e2', XR.sub_fin, e3, e3', rootGain,
      if_neg hj, Real.exp_zero, div_one]


/-! ### Resetting -/

theorem resetTickets_entry : ∀ (ks : List Int) {st : Storer ι XR}, st.WF → (st.resetTickets ks).WF ∧ (∀ j n i, (st.resetTickets ks).entry j n i = if j ∈ ks then none else st.entry j n i) ∧
    ∀ j, st.table j ≠ none → (st.resetTickets ks).table j ≠ none := by
  intro ks
  induction ks with
  | nil => intro st h; exact ⟨h, by simp [Storer.resetTickets], fun _ h => h⟩
  | cons k ks ih =>
    intro st h
    obtain ⟨h1, h2, h3⟩ := ih (Storer.reset_wf h k)
    have e : st.resetTickets (k :: ks) = (st.reset k).resetTickets ks := rfl
    rw [e]
    refine ⟨h1, fun j n i => ?_, fun j hj => h3 j (reset_table _ _ hj)⟩
    rw [h2, reset_entry h]
    by_cases hj : j ∈ ks <;> by_cases hk : j = k <;> simp [hj, hk]

theorem Six.reset {s d w z p u : Int} {st st' : Storer ι XR} (h : Six s d w z p u st) (hwf : st'.WF) (ht : ∀ k, st.table k ≠ none → st'.table k ≠ none) :
    Six s d w z p u (st'.resetTickets [s, d, w, z, p, u]) := by
  obtain ⟨h1, h2, h3⟩ := resetTickets_entry [s, d, w, z, p, u] hwf
  exact ⟨h1, h.distinct, fun k hk => ⟨(h.blank k hk).nonneg, h3 k (ht k (h.blank k hk).table), fun n i => by rw [h2, if_pos hk]⟩⟩

theorem Six.next {s d w z p u : Int} {st st' : Storer ι XR} (h : Six s d w z p u st) (hwf : st'.WF) (ht : ∀ k ∈ [s, d, w, z, p, u], st'.table k ≠ none)
    (he : ∀ k ∈ [s, d, w, z, p, u], ∀ n i, st'.entry k n i = st.entry k n i) : Six s d w z p u st' :=
  ⟨hwf, h.distinct, fun k hk => ⟨(h.blank k hk).nonneg, ht k hk, fun n i => by rw [he k hk]; exact (h.blank k hk).empty n i⟩⟩

/-! ### Changing the weights of the root -/

/-- The new weights, before they are normalised; `xs` are the sums of what the instances add. -/
noncomputable def movedWeights (eta lambda b : ℝ) (g : Nat → ℝ) (r : List ℝ) : List ℝ := r.mapIdx fun j a => a + eta / b * g j - 2 * lambda * a

theorem normalized_learn (norm : Bool) (r' : List ℝ) : Normalized norm r' (if norm then learnNormalize (r'.map XR.fin) else r'.map XR.fin) := by
  refine ⟨?_, ?_, ?_⟩
  · rintro rfl; rfl
  · rintro rfl h; simp only [if_true, (C25_normalize _ h).1]
  · rintro rfl h; simp only [if_true, learnNormalize_zero h]

theorem rootChange {N N' : Net ι XR} {S : ι} {cs : List ι} {w w' : List XR} (h : ∀ n, n ≠ S → N'.kind n = N.kind n) (hk : N.kind S = .sum cs w) (hk' : N'.kind S = .sum cs w') (hl : w'.length = w.length) :
    OnlyWeights S N N' := by
  intro n
  by_cases hn : n = S
  · subst hn
    rw [hk]
    exact ⟨w', hk', hl, fun hr => absurd Relation.ReflTransGen.refl hr⟩
  · rw [h n hn]
    cases N.kind n with
    | sum cs w => exact ⟨w, rfl, rfl, fun _ => rfl⟩
    | product cs => rfl
    | leaf l => rfl

theorem RootNet.of {N N' : Net ι XR} {S : ι} (h : RootNet N S) (hs : OnlyWeights S N N') : RootNet N' S := by
  refine ⟨by rw [hs.ch]; exact h.acyclic, by rw [hs.ch]; exact h.siblings, by rw [hs.ch]; exact h.inner, ?_, by rw [hs.type]; exact h.root⟩
  intro n cs w hk
  obtain ⟨w', h1, _⟩ := hs.sum' hk
  exact h.sums n cs w' h1

theorem RootInst.of {N N' : Net ι XR} {S : ι} {Y : List Int} {I : VarSet} (h : RootInst N S Y I) (hs : OnlyWeights S N N') : RootInst N' S Y I :=
  ⟨hs.leavesEval h.full, hs.leavesEval h.hidden, h.restored⟩

/-- The step, given that the weights of the root are the moved ones. -/
theorem rootStep_of {N N' : Net ι XR} {S : ι} {Y : List Int} (hN : RootNet N S) (hw : NonnegWeights N S) {eta lambda b : ℝ} {norm : Bool} {B : List VarSet}
    (hB : ∀ I ∈ B, RootInst N S Y I ∧ 0 < N.prob I S ∧ 0 < N.prob (hide Y I) S) {cs : List ι} {r : List ℝ} (hk : N.kind S = .sum cs (r.map XR.fin)) (hlen : r.length = cs.length)
    (hother : ∀ n, n ≠ S → N'.kind n = N.kind n) (g : Nat → ℝ) (hg : ∀ (j : Nat) c, cs[j]? = some c → g j = (B.map fun I => rootGain N S Y I j c).sum)
    (hk' : N'.kind S = .sum cs (if norm then learnNormalize ((movedWeights eta lambda b g r).map XR.fin) else (movedWeights eta lambda b g r).map XR.fin)) :
    RootStep S eta lambda b norm Y B N N' ∧ OnlyWeights S N N' := by
  refine ⟨⟨hother, cs, r, movedWeights eta lambda b g r, _, hk, hk', by simp [movedWeights], normalized_learn _ _, ?_⟩, rootChange hother hk hk' (by cases norm <;> simp [movedWeights, learnNormalize_length])⟩
  intro j a hj
  have hjlt : j < r.length := by
    by_contra hc
    rw [List.getElem?_eq_none (not_lt.1 hc)] at hj
    cases hj
  obtain ⟨c, hc⟩ : ∃ c, cs[j]? = some c := ⟨_, List.getElem?_eq_getElem (by omega)⟩
  refine ⟨B.map fun I => rootGain N S Y I j c, ?_, by simp [movedWeights, hj, hg j c hc]⟩
  rw [List.forall₂_map_right_iff]
  rw [List.forall₂_same]
  intro I hI
  exact rootGain_spec hN.acyclic hw (hB I hI).1 hk (hB I hI).2.1 (hB I hI).2.2 hc hj

theorem NonnegWeights.root {N : Net ι XR} {S : ι} (hw : NonnegWeights N S) (ht : N.type S = .sum) :
    ∃ (cs : List ι) (r : List ℝ), N.kind S = .sum cs (r.map XR.fin) ∧ r.length = cs.length := by
  cases hk : N.kind S with
  | sum cs w =>
    obtain ⟨_, r, rfl, h, _⟩ := hw S Relation.ReflTransGen.refl cs w hk
    exact ⟨cs, r, rfl, h⟩
  | product cs => simp [Net.type, hk] at ht
  | leaf l => simp [Net.type, hk] at ht

theorem blocked_or {N : Net ι XR} {S : ι} {Y : List Int} (hac : Acyclic N.ch) {B : List VarSet} (hB : ∀ I ∈ B, RootInst N S Y I) :
    Blocked N S Y B ∨ (NonnegWeights N S ∧ ∀ I ∈ B, 0 < N.prob I S ∧ 0 < N.prob (hide Y I) S) := by
  by_cases hw : NonnegWeights N S
  swap
  · exact Or.inl (Or.inl hw)
  by_cases h : ∀ I ∈ B, 0 < N.prob I S ∧ 0 < N.prob (hide Y I) S
  · exact Or.inr ⟨hw, h⟩
  · push Not at h
    obtain ⟨I, hI, h⟩ := h
    have hp := prob_isValuation hac hw (hB I hI).full
    have hp' := prob_isValuation hac hw (hB I hI).hidden
    refine Or.inl (Or.inr ⟨I, hI, ?_⟩)
    by_cases h0 : 0 < N.prob I S
    · exact Or.inr ⟨_, hp', prob_leaf hac (hB I hI).hidden, le_antisymm (h h0) (hp' S Relation.ReflTransGen.refl).2⟩
    · exact Or.inl ⟨_, hp, prob_leaf hac (hB I hI).full, le_antisymm (not_lt.1 h0) (hp S Relation.ReflTransGen.refl).2⟩

/-! ### DiscriminativeGD -/

theorem dgd_step {N : Net ι XR} {S : ι} {P : Params XR} {eta lambda : ℝ} (hP : P.lambda = .fin lambda) {norm : Bool} {Y : List Int} {I : VarSet} (hN : RootNet N S) (hw : NonnegWeights N S)
    (hI : RootInst N S Y I) (h0 : 0 < N.prob I S) (h0' : 0 < N.prob (hide Y I) S) {s d w z p u : Int} {st : Storer ι XR} (h6 : Six s d w z p u st) :
    ∃ N' st', Net.dgdInstance S P (.fin eta) Y norm s d w z p u (N, st) I = some ((N', st'), I) ∧ Six s d w z p u st' ∧ RootStep S eta lambda 1 norm Y [I] N N' ∧ OnlyWeights S N N' := by
  obtain ⟨cs, r, hk, hlen⟩ := NonnegWeights.root hw hN.root
  obtain ⟨st1, a1, a2, a3, a4, a5, a6⟩ := disc_tables hN hw hI hk h6
  obtain ⟨k, hfuel⟩ := card_fuel S
  obtain ⟨N', ws', b1, b2, b3, b4⟩ := C34_root_partial N S hN.acyclic s w z u st1 (.fin eta) (.fin lambda) (ofInt 1) norm k cs _ hk
  obtain ⟨N'', c1, c2⟩ := C34_refuted N S hN.acyclic s w z u st1 (.fin eta) (.fin lambda) (ofInt 1) norm k
  rw [b1] at c1
  obtain rfl := Option.some.inj c1
  obtain ⟨g, hg⟩ : ∃ g : Nat → ℝ, ∀ (j : Nat) c, cs[j]? = some c → g j = ([I].map fun I => rootGain N S Y I j c).sum :=
    ⟨fun j => (cs[j]?).elim 0 fun c => rootGain N S Y I j c, fun j c hc => by simp [hc]⟩
  have hws : ws' = (movedWeights eta lambda 1 g r).map XR.fin := by
    apply List.ext_getElem?
    intro j
    by_cases hj : j < r.length
    · obtain ⟨c, hc⟩ : ∃ c, cs[j]? = some c := ⟨_, List.getElem?_eq_getElem (by omega)⟩
      have hrj : r[j]? = some r[j] := List.getElem?_eq_getElem hj
      rw [b4 j (.fin r[j]) (by simp [hrj]), gain_exp a5 a6 h0 h0' hc]
      simp only [movedWeights, List.getElem?_map, List.getElem?_mapIdx, hrj, Option.map_some, hg j c hc, List.map_cons, List.map_nil, List.sum_cons, List.sum_nil, add_zero, XR.g_mul, XR.mul_fin,
        XR.g_ofInt, XR.g_div, Int.cast_one, XR.div_fin one_ne_zero, XR.g_sub, XR.sub_fin, XR.g_add, XR.add_fin]
      congr 2
      push_cast
      ring
    · rw [List.getElem?_eq_none (by rw [b3]; simpa using hj), List.getElem?_eq_none (by simp [movedWeights]; omega)]
  rw [hws] at b2
  obtain ⟨q1, q2⟩ := rootStep_of (Y := Y) (B := [I]) hN hw (by simpa using ⟨hI, h0, h0'⟩) hk hlen c2 g hg b2
  refine ⟨N', _, ?_, h6.reset a2 (fun k hk' => by rw [a3]; exact hk'), q1, q2⟩
  simp only [Net.dgdInstance, a1, Option.bind_some, hfuel, hP, b1, Option.map_some, (C35_restored_iff I Y).2 hI.restored]

theorem Spec.RootRun.append {S : ι} {eta lambda b : ℝ} {norm : Bool} {Y : List Int} {Bs Bs' : List (List VarSet)} {N N' N'' : Net ι XR} (h : RootRun S eta lambda b norm Y Bs N N')
    (h' : RootRun S eta lambda b norm Y Bs' N' N'') : RootRun S eta lambda b norm Y (Bs ++ Bs') N N'' := by
  induction h with
  | nil N => exact h'
  | cons h1 _ ih => exact .cons h1 (ih h')

/-- Some first blocks lead to a network where the next one is blocked. -/
def Halted (S : ι) (eta lambda b : ℝ) (norm : Bool) (Y : List Int) (Bs : List (List VarSet)) (N : Net ι XR) : Prop :=
  ∃ pre B post N1, Bs = pre ++ B :: post ∧ RootRun S eta lambda b norm Y pre N N1 ∧ Blocked N1 S Y B

theorem Halted.after {S : ι} {eta lambda b : ℝ} {norm : Bool} {Y : List Int} {Bs Bs' : List (List VarSet)} {N N' : Net ι XR} (h : RootRun S eta lambda b norm Y Bs N N')
    (h' : Halted S eta lambda b norm Y Bs' N') : Halted S eta lambda b norm Y (Bs ++ Bs') N := by
  obtain ⟨pre, B, post, N1, rfl, h1, h2⟩ := h'
  exact ⟨Bs ++ pre, B, post, N1, by simp, h.append h1, h2⟩

theorem Halted.before {S : ι} {eta lambda b : ℝ} {norm : Bool} {Y : List Int} {Bs : List (List VarSet)} {N : Net ι XR} (h : Halted S eta lambda b norm Y Bs N) (Bs' : List (List VarSet)) :
    Halted S eta lambda b norm Y (Bs ++ Bs') N := by
  obtain ⟨pre, B, post, N1, rfl, h1, h2⟩ := h
  exact ⟨pre, B, post ++ Bs', N1, by simp, h1, h2⟩

theorem dgd_over {S : ι} {P : Params XR} {eta lambda : ℝ} (hP : P.lambda = .fin lambda) {norm : Bool} {Y : List Int} {s d w z p u : Int} {N0 : Net ι XR} (hN : RootNet N0 S) :
    ∀ (D : List VarSet) (N : Net ι XR) (st : Storer ι XR), OnlyWeights S N0 N → Six s d w z p u st → (∀ I ∈ D, RootInst N0 S Y I) →
    (∃ N' st', overData (Net.dgdInstance S P (.fin eta) Y norm s d w z p u) (N, st) D = some ((N', st'), D) ∧ OnlyWeights S N0 N' ∧ Six s d w z p u st' ∧
      RootRun S eta lambda 1 norm Y (D.map ([·])) N N') ∨ Halted S eta lambda 1 norm Y (D.map ([·])) N := by
  intro D
  induction D with
  | nil => intro N st h1 h2 _; exact Or.inl ⟨N, st, rfl, h1, h2, .nil _⟩
  | cons I D ih =>
    intro N st h1 h2 hD
    have hI := (hD I (by simp)).of h1
    rcases blocked_or (Y := Y) (B := [I]) (hN.of h1).acyclic (by simpa using hI) with hb | ⟨hw, hpos⟩
    · exact Or.inr ⟨[], [I], D.map ([·]), N, rfl, .nil _, hb⟩
    · obtain ⟨N', st', a1, a2, a3, a4⟩ := dgd_step (eta := eta) (norm := norm) hP (hN.of h1) hw hI (hpos I (by simp)).1 (hpos I (by simp)).2 h2
      have hrun : RootRun S eta lambda 1 norm Y [[I]] N N' := .cons a3 (.nil _)
      rcases ih N' st' (h1.trans a4) a2 (fun J hJ => hD J (by simp [hJ])) with ⟨N2, st2, b1, b2, b3, b4⟩ | hs
      · exact Or.inl ⟨N2, st2, by simp only [overData, a1, Option.bind_some, b1, Option.map_some], b2, b3, hrun.append b4⟩
      · exact Or.inr (Halted.after hrun hs)

theorem dgd_rounds {S : ι} {P : Params XR} {eta lambda : ℝ} (hP : P.lambda = .fin lambda) {norm : Bool} {Y : List Int} {s d w z p u : Int} {N0 : Net ι XR} (hN : RootNet N0 S) {D : List VarSet}
    (hD : ∀ I ∈ D, RootInst N0 S Y I) : ∀ (k : Nat) (N : Net ι XR) (st : Storer ι XR), OnlyWeights S N0 N → Six s d w z p u st →
    (∃ N' st', (List.replicate k ()).foldlM (fun (x : (Net ι XR × Storer ι XR) × List VarSet) _ => overData (Net.dgdInstance S P (.fin eta) Y norm s d w z p u) x.1 x.2) ((N, st), D) =
        some ((N', st'), D) ∧ RootRun S eta lambda 1 norm Y ((List.replicate k D).flatten.map ([·])) N N') ∨
      Halted S eta lambda 1 norm Y ((List.replicate k D).flatten.map ([·])) N := by
  intro k
  induction k with
  | zero => intro N st _ _; exact Or.inl ⟨N, st, rfl, .nil _⟩
  | succ k ih =>
    intro N st h1 h2
    rw [List.replicate_succ (a := D), List.flatten_cons, List.map_append]
    rcases dgd_over (eta := eta) (norm := norm) hP hN D N st h1 h2 hD with ⟨N', st', a1, a2, a3, a4⟩ | hs
    · rcases ih N' st' a2 a3 with ⟨N2, st2, b1, b2⟩ | hs
      · refine Or.inl ⟨N2, st2, ?_, a4.append b2⟩
        rw [List.replicate_succ, List.foldlM_cons, a1]
        exact b1
      · exact Or.inr (Halted.after a4 hs)
    · exact Or.inr (hs.before _)


/-! ### DiscriminativeBGD -/

theorem dgdStore_spec {a : Nat} {n : ι} (dW dU iS iZ : Int → XR) (st : Storer ι XR) : ∀ k : Nat,
    ∃ st', dgdStore (some a) n dW dU iS iZ k st = some st' ∧ OnlyAt a st st' ∧ (∀ j : Nat, j < k → (st'.heap a).entry n j =
      some (add (((st.heap a).entry n j).getD (ofInt 0)) (sub (exp (sub (dW j) (iS j))) (exp (sub (dU j) (iZ j)))))) ∧
      ∀ m (i : Int), (¬ ∃ j : Nat, j < k ∧ m = n ∧ i = j) → (st'.heap a).entry m i = (st.heap a).entry m i := by
  intro k
  induction k with
  | zero => exact ⟨st, rfl, .refl _ _, by simp, fun _ _ _ => rfl⟩
  | succ k ih =>
    obtain ⟨st1, h1, h2, h3, h4⟩ := ih
    obtain ⟨st2, hst⟩ : ∃ st2, st1.tableStore (some a) n k (add (((st1.heap a).entry n k).getD (ofInt 0)) (sub (exp (sub (dW k) (iS k))) (exp (sub (dU k) (iZ k))))) = some st2 := ⟨_, rfl⟩
    refine ⟨st2, ?_, h2.trans (OnlyAt.store hst), ?_, ?_⟩
    · unfold dgdStore at h1 ⊢
      rw [List.range_succ, List.foldlM_append, h1]
      simp only [List.foldlM_cons, List.foldlM_nil, Option.bind_eq_bind, Option.bind_some, Option.pure_def, Option.bind_some]
      rw [show st1.deref (some a) = st1.heap a from rfl, hst]
      rfl
    · intro j hj
      rw [store_heap hst]
      by_cases hjk : j = k
      · subst hjk
        rw [if_pos ⟨rfl, rfl⟩, h4 n j (by rintro ⟨j', hj', _, hjj⟩; omega)]
      · rw [if_neg (by rintro ⟨_, hjj⟩; exact hjk (by exact_mod_cast hjj)), h3 j (by omega)]
    · intro m i hmi
      rw [store_heap hst, if_neg (by rintro ⟨rfl, rfl⟩; exact hmi ⟨k, by omega, rfl, rfl⟩)]
      exact h4 m i (by rintro ⟨j, hj, e1, e2⟩; exact hmi ⟨j, by omega, e1, e2⟩)

/-- What the table of ticket `l` holds after the instances `cur`. -/
structure Gains (N : Net ι XR) (S : ι) (Y : List Int) (l : Int) (cur : List VarSet) (st : Storer ι XR) : Prop where
  nonneg : 0 ≤ l
  table : st.table l ≠ none
  sums : ∀ (j : Nat) c, (N.ch S)[j]? = some c → (st.entry l S j).getD (ofInt 0) = .fin (cur.map fun I => rootGain N S Y I j c).sum
  there : cur ≠ [] → ∀ j : Nat, j < (N.ch S).length → st.entry l S j ≠ none
  range : ∀ n i, st.entry l n i ≠ none → n = S ∧ ∃ j : Nat, i = j ∧ j < (N.ch S).length

theorem Blank.gains {N : Net ι XR} {S : ι} {Y : List Int} {l : Int} {st : Storer ι XR} (h : Blank l st) : Gains N S Y l [] st :=
  ⟨h.nonneg, h.table, fun j c _ => by rw [h.empty]; simp, fun h => absurd rfl h, fun n i hi => absurd (h.empty n i) hi⟩

theorem Gains.same {N : Net ι XR} {S : ι} {Y : List Int} {l : Int} {cur : List VarSet} {st st' : Storer ι XR} (h : Gains N S Y l cur st) (ht : st.table l ≠ none → st'.table l ≠ none)
    (he : ∀ n i, st'.entry l n i = st.entry l n i) : Gains N S Y l cur st' :=
  ⟨h.nonneg, ht h.table, fun j c hc => by rw [he]; exact h.sums j c hc, fun h0 j hj => by rw [he]; exact h.there h0 j hj, fun n i hi => h.range n i (by rw [← he]; exact hi)⟩

theorem storeDGD_gains {N : Net ι XR} {S : ι} {Y : List Int} {I : VarSet} (hN : RootNet N S) (hw : NonnegWeights N S) (h0 : 0 < N.prob I S) (h0' : 0 < N.prob (hide Y I) S)
    {s w z u l : Int} {cur : List VarSet} {st : Storer ι XR} (hwf : st.WF) (h : RootTables N S I (N.ch S) s w st) (h' : RootTables N S (hide Y I) (N.ch S) z u st) (hg : Gains N S Y l cur st) :
    ∃ st', N.storeDGD S s w z u l st (Fintype.card ι + 1) = some st' ∧ st'.WF ∧ (∀ k, st'.table k = st.table k) ∧ (∀ k, k ≠ l → ∀ n i, st'.entry k n i = st.entry k n i) ∧
      Gains N S Y l (cur ++ [I]) st' := by
  obtain ⟨cs, r, hk, hlen⟩ := NonnegWeights.root hw hN.root
  have hch : N.ch S = cs := by simp [Net.ch, hk]
  obtain ⟨a, ha⟩ := Option.ne_none_iff_exists'.1 hg.table
  obtain ⟨k, hfuel⟩ := card_fuel S
  obtain ⟨st', a1, a2, a3, a4⟩ := dgdStore_spec (a := a) (n := S) ((st.deref (st.table w)).getInner S) ((st.deref (st.table u)).getInner S) ((st.deref (st.table s)).getInner S)
    ((st.deref (st.table z)).getInner S) st (N.weights S).length
  have hwl : (N.weights S).length = cs.length := by simp [Net.weights, hk, hlen]
  have ht : ∀ k, st'.table k = st.table k := fun k => congrFun a2.tables k
  have hent : ∀ (x : Storer ι XR), x.table l = some a → ∀ n i, x.entry l n i = (x.heap a).entry n i := by
    intro x hx n i
    have hx' : x.tables l = some a := hx
    simp [Storer.entry, hx']
  have hother : ∀ k, k ≠ l → ∀ n i, st'.entry k n i = st.entry k n i := by
    intro k hkl n i
    simp only [Storer.entry, a2.tables]
    cases hc : st.tables k with
    | none => rfl
    | some b =>
      have : b ≠ a := by rintro rfl; exact hkl (hwf.inj _ _ _ hc ha)
      simp only [a2.others b this]
  refine ⟨st', ?_, a2.wf hwf, ht, hother, hg.nonneg, by rw [ht]; exact hg.table, ?_, ?_, ?_⟩
  · rw [Net.storeDGD, hfuel, dgdLoop_root _ (root_not_child hN.acyclic S), if_pos hN.root]
    simp only [Option.bind_some, ha, a1, Option.join_some]
  · intro j c hc
    have hj : j < (N.weights S).length := by
      rw [hwl, ← hch]
      by_contra hh
      rw [List.getElem?_eq_none (not_lt.1 hh)] at hc
      cases hc
    have := gain_exp h h' h0 h0' hc
    rw [hent st' (by rw [ht, ha]), a3 j hj, Option.getD_some, ← hent st ha, hg.sums j c hc]
    simp only [Table.getInner, deref_table]
    rw [this]
    simp
  · intro _ j hj
    rw [hent st' (by rw [ht, ha]), a3 j (by rw [hwl, ← hch]; exact hj)]
    simp
  · intro n i hi
    rw [hent st' (by rw [ht, ha])] at hi
    by_cases hh : ∃ j : Nat, j < (N.weights S).length ∧ n = S ∧ i = j
    · obtain ⟨j, hj, e1, e2⟩ := hh
      exact ⟨e1, j, e2, by rw [hch, ← hwl]; exact hj⟩
    · rw [a4 n i hh, ← hent st ha] at hi
      exact hg.range n i hi

/-- What is asked of a block: see `Blocked`. -/
def ReadyBlock (N : Net ι XR) (S : ι) (Y : List Int) (B : List VarSet) : Prop := NonnegWeights N S ∧ ∀ I ∈ B, 0 < N.prob I S ∧ 0 < N.prob (hide Y I) S

theorem dbgd_close {N : Net ι XR} {S : ι} {P : Params XR} {eta lambda : ℝ} (hP : P.lambda = .fin lambda) {norm : Bool} {Y : List Int} {b : Nat} (hb : 0 < b) {mo : RangeOrder ι XR} (ho : RangesAll mo)
    (hN : RootNet N S) {cur : List VarSet} (hI : ∀ I ∈ cur, RootInst N S Y I) (hr : ReadyBlock N S Y cur) (hne : cur ≠ []) {l : Int} {st : Storer ι XR} (hwf : st.WF) (hg : Gains N S Y l cur st) :
    ∃ N', Net.applyReset (dgdFromWeight (.fin eta) P.lambda (ofInt b)) l norm mo (N, st) = some (N', st.reset l) ∧ RootStep S eta lambda b norm Y cur N N' ∧ OnlyWeights S N N' := by
  obtain ⟨hw, hpos⟩ := hr
  obtain ⟨cs, r, hk, hlen⟩ := NonnegWeights.root hw hN.root
  have hch : N.ch S = cs := by simp [Net.ch, hk]
  have hrow : ∀ n m, st.deref (st.table l) n = some m → n = S := by
    intro n m hm
    obtain ⟨i, hi⟩ := hwf.row hm
    exact (hg.range n i (by rw [← deref_table, Table.entry, hm]; exact hi)).1
  obtain ⟨N', q1, q2, q3⟩ := applyFast_spec N (dgdFromWeight (.fin eta) P.lambda (ofInt b)) norm ho st.next (st.deref (st.table l)) (by
    intro s cs' w hk' m hm i hi
    obtain ⟨rfl, j, rfl, hj⟩ := hg.range s i (by rw [← deref_table, Table.entry, hm]; exact hi)
    rw [hk] at hk'
    cases hk'
    rw [hch] at hj
    simp
    omega)
  have hother : ∀ n, n ≠ S → N'.kind n = N.kind n := fun n hn => q2 n (Or.inr (by
    cases hc : st.deref (st.table l) n with
    | none => rfl
    | some m => exact absurd (hrow n m hc) hn))
  have hcs : cs ≠ [] := hN.sums S cs _ hk
  obtain ⟨m, hm⟩ : ∃ m, st.deref (st.table l) S = some m := by
    have := hg.there hne 0 (by rw [hch]; exact List.length_pos_of_ne_nil hcs)
    rw [← deref_table, Table.entry] at this
    cases hc : st.deref (st.table l) S with
    | none => rw [hc] at this; exact absurd rfl this
    | some m => exact ⟨m, rfl⟩
  have hme : ∀ i, m i = st.entry l S i := by
    intro i; rw [← deref_table, Table.entry, hm]
  obtain ⟨g, hgg⟩ : ∃ g : Nat → ℝ, ∀ (j : Nat) c, cs[j]? = some c → g j = (cur.map fun I => rootGain N S Y I j c).sum :=
    ⟨fun j => (cs[j]?).elim 0 fun c => (cur.map fun I => rootGain N S Y I j c).sum, fun j c hc => by simp [hc]⟩
  have hb' : ((b : Int) : ℝ) ≠ 0 := by exact_mod_cast hb.ne'
  have hws : rowWeights (dgdFromWeight (.fin eta) P.lambda (ofInt b)) m (r.map XR.fin) = (movedWeights eta lambda b g r).map XR.fin := by
    apply List.ext_getElem (by simp [rowWeights, movedWeights])
    intro j hj1 hj2
    have hj : j < r.length := by simpa [movedWeights] using hj2
    obtain ⟨c, hc⟩ : ∃ c, cs[j]? = some c := ⟨_, List.getElem?_eq_getElem (by omega)⟩
    have h1 := hg.sums j c (by rw [hch]; exact hc)
    have h2 := hg.there hne j (by rw [hch]; omega)
    obtain ⟨e, he⟩ := Option.ne_none_iff_exists'.1 h2
    rw [he, Option.getD_some] at h1
    subst h1
    simp only [rowWeights, movedWeights, List.getElem_mapIdx, List.getElem_map, hme, he, Option.elim_some, dgdFromWeight, hP, XR.g_mul, XR.mul_fin, XR.g_ofInt, XR.g_div, XR.div_fin hb', XR.g_sub,
      XR.sub_fin, XR.g_add, XR.add_fin, hgg j c hc]
    congr 1
    push_cast
    ring
  have hk' := q3 S cs _ m hk hm
  rw [hws] at hk'
  obtain ⟨p1, p2⟩ := rootStep_of (Y := Y) (B := cur) hN hw (fun I h => ⟨hI I h, hpos I h⟩) hk hlen hother g hgg hk'
  exact ⟨N', by simp only [Net.applyReset, q1, Option.map_some], p1, p2⟩

/-- What holds between two instances, `N0` being the network of the start and `done` all instances so far. -/
structure DBState (S : ι) (eta lambda : ℝ) (b : Nat) (norm : Bool) (Y : List Int) (s d w z p u l : Int) (N0 : Net ι XR) (done : List VarSet) (x : (Net ι XR × Storer ι XR) × Int) : Prop where
  count : x.2 = done.length
  six : Six s d w z p u x.1.2
  shape : OnlyWeights S N0 x.1.1
  parts : ∃ (blocks : List (List VarSet)) (cur : List VarSet), done = blocks.flatten ++ cur ∧ (∀ B ∈ blocks, B.length = b) ∧ cur.length < b ∧ (∀ I ∈ cur, RootInst N0 S Y I) ∧
    RootRun S eta lambda b norm Y blocks N0 x.1.1 ∧ Gains x.1.1 S Y l cur x.1.2 ∧ (cur ≠ [] → ReadyBlock x.1.1 S Y cur)

/-- The first full blocks lead to a network where the next instances are blocked. -/
def HaltedBy (S : ι) (eta lambda : ℝ) (b : Nat) (norm : Bool) (Y : List Int) (all : List VarSet) (N : Net ι XR) : Prop :=
  ∃ (pre : List (List VarSet)) (B rest : List VarSet) (N1 : Net ι XR), all = pre.flatten ++ (B ++ rest) ∧ (∀ B ∈ pre, B.length = b) ∧ B.length ≤ b ∧ B ≠ [] ∧ RootRun S eta lambda b norm Y pre N N1 ∧
    Blocked N1 S Y B

theorem HaltedBy.more {S : ι} {eta lambda : ℝ} {b : Nat} {norm : Bool} {Y : List Int} {all : List VarSet} {N : Net ι XR} (h : HaltedBy S eta lambda b norm Y all N) (more : List VarSet) :
    HaltedBy S eta lambda b norm Y (all ++ more) N := by
  obtain ⟨pre, B, rest, N1, rfl, h1, h2, h3, h4⟩ := h
  exact ⟨pre, B, rest ++ more, N1, by simp, h1, h2, h3, h4⟩

theorem HaltedBy.halted {S : ι} {eta lambda : ℝ} {b : Nat} (hb : 0 < b) {norm : Bool} {Y : List Int} {all : List VarSet} {N : Net ι XR} (h : HaltedBy S eta lambda b norm Y all N) :
    ∃ blocks, IsBlocking b all blocks ∧ Halted S eta lambda b norm Y blocks N := by
  obtain ⟨pre, B, rest, N1, rfl, h1, h2, h3, h4, h5⟩ := h
  obtain ⟨post, p1, p2, p3⟩ := blocking_exists hb ((B ++ rest).drop b).length ((B ++ rest).drop b) le_rfl
  have hbl : IsBlocking b (B ++ rest) ((B ++ rest).take b :: post) := by
    refine ⟨by simp only [List.flatten_cons, p1, List.take_append_drop], ?_, ?_⟩
    · intro C hC
      rcases List.mem_cons.1 hC with rfl | hC
      · refine ⟨?_, by simp⟩
        intro h
        rcases List.take_eq_nil_iff.1 h with h | h
        · omega
        · simp [h3] at h
      · exact p2 C hC
    · intro C hC
      by_cases hp : post = []
      · subst hp; simp at hC
      · rw [List.dropLast_cons_of_ne_nil hp] at hC
        rcases List.mem_cons.1 hC with rfl | hC
        · rw [List.length_take, min_eq_left]
          by_contra hlt
          have : (B ++ rest).drop b = [] := List.drop_eq_nil_iff.2 (by omega)
          rw [this] at p1
          obtain ⟨C, hC⟩ := List.exists_mem_of_ne_nil _ hp
          have := (p2 C hC).1
          exact this (List.flatten_eq_nil_iff.1 p1 C hC)
        · exact p3 C hC
  refine ⟨pre ++ (B ++ rest).take b :: post, blocking_append hb h1 hbl, pre, _, post, N1, rfl, h4, ?_⟩
  rcases h5 with h5 | ⟨I, hI, h5⟩
  · exact Or.inl h5
  · refine Or.inr ⟨I, ?_, h5⟩
    rw [List.take_append]
    simp [List.take_of_length_le h2, hI]

theorem dbgd_step {S : ι} {P : Params XR} {eta lambda : ℝ} (hP : P.lambda = .fin lambda) {norm : Bool} {Y : List Int} {b : Nat} (hb : 0 < b) {mo : RangeOrder ι XR} (ho : RangesAll mo)
    {s d w z p u l : Int} (hl : l ∉ [s, d, w, z, p, u]) {N0 : Net ι XR} (hN : RootNet N0 S) {done : List VarSet} {x : (Net ι XR × Storer ι XR) × Int}
    (h : DBState S eta lambda b norm Y s d w z p u l N0 done x) {I : VarSet} (hI : RootInst N0 S Y I) :
    (∃ y, Net.dbgdInstance S P (.fin eta) Y norm b mo s d w z p u l x I = some (y, I) ∧ DBState S eta lambda b norm Y s d w z p u l N0 (done ++ [I]) y) ∨
      HaltedBy S eta lambda b norm Y (done ++ [I]) N0 := by
  obtain ⟨⟨N, st⟩, i⟩ := x
  obtain ⟨hc, h6, hsh, blocks, cur, hdone, hbl, hcur, hinst, hrun, hg, hready⟩ := h
  dsimp only at *
  have hN' := hN.of hsh
  have hinst' : ∀ J ∈ cur ++ [I], RootInst N S Y J := by
    intro J hJ
    rcases List.mem_append.1 hJ with h | h
    · exact (hinst J h).of hsh
    · rw [List.mem_singleton.1 h]; exact hI.of hsh
  rcases blocked_or (Y := Y) (B := cur ++ [I]) hN'.acyclic hinst' with hbk | hr
  · exact Or.inr ⟨blocks, cur ++ [I], [], N, by simp [hdone], hbl, by simp; omega, by simp, hrun, hbk⟩
  left
  have hw := hr.1
  have hpos := hr.2 I (by simp)
  obtain ⟨cs, r, hk, hlen⟩ := NonnegWeights.root hw hN'.root
  have hch : N.ch S = cs := by simp [Net.ch, hk]
  subst hch
  obtain ⟨st1, a1, a2, a3, a4, a5, a6⟩ := disc_tables hN' hw (hI.of hsh) hk h6
  obtain ⟨st2, b1, b2, b3, b4, b5⟩ := storeDGD_gains hN' hw hpos.1 hpos.2 a2 a5 a6 (hg.same (fun h => by rw [a3]; exact h) (a4 l hl))
  obtain ⟨c1, c2, c3⟩ := resetTickets_entry [s, d, w, z, p, u] b2
  have h6' : Six s d w z p u (st2.resetTickets [s, d, w, z, p, u]) := h6.reset b2 (fun k hk' => by rw [b3, a3]; exact hk')
  have hg' : Gains N S Y l (cur ++ [I]) (st2.resetTickets [s, d, w, z, p, u]) := b5.same (c3 l) (fun n i => by rw [c2, if_neg hl])
  have hlen' : done.length = blocks.length * b + cur.length := by
    rw [hdone, List.length_append, List.length_flatten, List.map_congr_left hbl]
    simp
  have hdvd : b ∣ (done.length + 1) ↔ cur.length + 1 = b := by
    rw [hlen', Nat.add_assoc, Nat.dvd_add_right (Nat.dvd_mul_left _ _)]
    constructor
    · intro hdv
      have := Nat.le_of_dvd (by omega) hdv
      omega
    · intro e; rw [e]
  have hgo : goDvd (i + 1) b = some (decide (cur.length + 1 = b)) := by
    rw [hc, ← Nat.cast_succ, goDvd_nat _ _ hb]
    simp only [Nat.succ_eq_add_one, hdvd]
  simp only [Net.dbgdInstance, a1, b1, Option.bind_some, hgo, decide_eq_true_eq, (C35_restored_iff I Y).2 hI.restored]
  by_cases hfull : cur.length + 1 = b
  · rw [if_pos hfull]
    obtain ⟨N', q1, q2, q3⟩ := dbgd_close (eta := eta) (norm := norm) hP hb ho hN' hinst' hr (by simp) c1 hg'
    rw [q1]
    refine ⟨_, rfl, by simp [hc], ?_, hsh.trans q3, blocks ++ [cur ++ [I]], [], by simp [hdone], ?_, by simpa using hb, by simp, ?_, ?_, fun h => absurd rfl h⟩
    · refine h6'.next (Storer.reset_wf c1 _) (fun k hk' => reset_table _ _ (h6'.blank k hk').table) (fun k hk' n i => ?_)
      rw [reset_entry c1, if_neg (by rintro rfl; exact hl hk')]
    · intro B hB'
      rcases List.mem_append.1 hB' with h' | h'
      · exact hbl B h'
      · simp at h'; subst h'; simpa using hfull
    · exact hrun.append (.cons q2 (.nil _))
    · exact Blank.gains ⟨hg'.nonneg, reset_table _ _ hg'.table, fun n i => by rw [reset_entry c1, if_pos rfl]⟩
  · rw [if_neg hfull]
    refine ⟨_, rfl, by simp [hc], h6', hsh, blocks, cur ++ [I], by simp [hdone], hbl, by simp; omega, ?_, hrun, hg', fun _ => hr⟩
    intro J hJ
    rcases List.mem_append.1 hJ with h | h
    · exact hinst J h
    · rw [List.mem_singleton.1 h]; exact hI

theorem dbgd_over {S : ι} {P : Params XR} {eta lambda : ℝ} (hP : P.lambda = .fin lambda) {norm : Bool} {Y : List Int} {b : Nat} (hb : 0 < b) {mo : RangeOrder ι XR} (ho : RangesAll mo)
    {s d w z p u l : Int} (hl : l ∉ [s, d, w, z, p, u]) {N0 : Net ι XR} (hN : RootNet N0 S) :
    ∀ (D done : List VarSet) (x : (Net ι XR × Storer ι XR) × Int), DBState S eta lambda b norm Y s d w z p u l N0 done x → (∀ I ∈ D, RootInst N0 S Y I) →
    (∃ y, overData (Net.dbgdInstance S P (.fin eta) Y norm b mo s d w z p u l) x D = some (y, D) ∧ DBState S eta lambda b norm Y s d w z p u l N0 (done ++ D) y) ∨
      HaltedBy S eta lambda b norm Y (done ++ D) N0 := by
  intro D
  induction D with
  | nil => intro done x h _; exact Or.inl ⟨x, rfl, by simpa using h⟩
  | cons I D ih =>
    intro done x h hD
    rcases dbgd_step hP hb ho hl hN h (hD I (by simp)) with ⟨y, a1, a2⟩ | hs
    · rcases ih (done ++ [I]) y a2 (fun J hJ => hD J (by simp [hJ])) with ⟨z, b1, b2⟩ | hs
      · exact Or.inl ⟨z, by simp only [overData, a1, Option.bind_some, b1, Option.map_some], by simpa using b2⟩
      · exact Or.inr (by simpa using hs)
    · exact Or.inr (by simpa using hs.more D)

theorem dbgd_rounds {S : ι} {P : Params XR} {eta lambda : ℝ} (hP : P.lambda = .fin lambda) {norm : Bool} {Y : List Int} {b : Nat} (hb : 0 < b) {mo : RangeOrder ι XR} (ho : RangesAll mo)
    {s d w z p u l : Int} (hl : l ∉ [s, d, w, z, p, u]) {N0 : Net ι XR} (hN : RootNet N0 S) {D : List VarSet} (hD : ∀ I ∈ D, RootInst N0 S Y I) :
    ∀ (k : Nat) (done : List VarSet) (x : (Net ι XR × Storer ι XR) × Int), DBState S eta lambda b norm Y s d w z p u l N0 done x →
    (∃ y, (List.replicate k ()).foldlM (fun (x : ((Net ι XR × Storer ι XR) × Int) × List VarSet) _ => overData (Net.dbgdInstance S P (.fin eta) Y norm b mo s d w z p u l) x.1 x.2) (x, D) =
        some (y, D) ∧ DBState S eta lambda b norm Y s d w z p u l N0 (done ++ (List.replicate k D).flatten) y) ∨
      HaltedBy S eta lambda b norm Y (done ++ (List.replicate k D).flatten) N0 := by
  intro k
  induction k with
  | zero => intro done x h; exact Or.inl ⟨x, rfl, by simpa using h⟩
  | succ k ih =>
    intro done x h
    rw [List.replicate_succ (a := D), List.flatten_cons, ← List.append_assoc]
    rcases dbgd_over hP hb ho hl hN D done x h hD with ⟨y, a1, a2⟩ | hs
    · rcases ih _ y a2 with ⟨z, b1, b2⟩ | hs
      · refine Or.inl ⟨z, ?_, b2⟩
        rw [List.replicate_succ, List.foldlM_cons, a1]
        exact b1
      · exact Or.inr hs
    · exact Or.inr (hs.more _)

end Disc
end Gospn
