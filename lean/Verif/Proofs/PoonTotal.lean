/-
learn/poon/poon.go on any number of instances: `Structure` does not panic. Exact arithmetic.
-/
import Verif.Proofs.PoonInit
import Verif.Proofs.Leaves
import Verif.Proofs.Marginal

set_option linter.unusedSectionVars false
set_option linter.unusedSimpArgs false

namespace Gospn
open Spec GoFloat

/-- Only logarithms of non-negative numbers. -/
def Logs (t : PNode → Option XR) : Prop := ∀ n v, t n = some v → IsLogProb v

theorem Logs.single {t : PNode → Option XR} (ht : Logs t) (n : PNode) : IsLogProb (single t n) := by
  unfold Gospn.single
  cases h : t n with
  | none => simp
  | some v => exact ht n v h

theorem Logs.update {t : PNode → Option XR} (ht : Logs t) (n : PNode) {v : XR} (hv : IsLogProb v) : Logs (Function.update t n (some v)) := by
  intro n' v' h
  by_cases hn : n' = n
  · subst hn
    rw [Function.update_self] at h
    cases h
    exact hv
  · rw [Function.update_of_ne hn] at h
    exact ht n' v' h

theorem Spec.IsLogProb.self_eq {x : XR} (h : IsLogProb x) : GoFloat.eq x x = true := by
  rcases IsLogProb.cases h with rfl | ⟨a, rfl⟩
  · rfl
  · simp [XR.eq]

theorem Spec.IsLogProb.sub_zero {x : XR} (h : IsLogProb x) : IsLogProb (GoFloat.sub x (XR.fin 0)) := by
  rcases IsLogProb.cases h with rfl | ⟨a, rfl⟩ <;> simp

theorem Spec.IsLogProb.add {x y : XR} (h : IsLogProb x) (h' : IsLogProb y) : IsLogProb (GoFloat.add x y) := by
  rcases IsLogProb.cases h with rfl | ⟨a, rfl⟩ <;> rcases IsLogProb.cases h' with rfl | ⟨b, rfl⟩ <;> simp

/-- A normal distribution with positive deviation. -/
def ProperPair (p : XR × XR) : Prop := ∃ mu sigma : ℝ, 0 < sigma ∧ p = (.fin mu, .fin sigma)

theorem proper_value {p : XR × XR} (hp : ProperPair p) (I : VarSet) (v : Int) : ∃ a, (newGaussianParams v p.1 p.2).value I = some (XR.fin a) := by
  obtain ⟨mu, sigma, hs, rfl⟩ := hp
  have hz : GoFloat.eq (XR.fin sigma) (ofInt 0 : XR) = false := by simp [XR.eq, hs.ne']
  cases hI : I v with
  | none => exact ⟨0, by simp only [newGaussianParams, Leaf.value, hz, hI, Bool.false_eq_true, if_false]; rw [XR.g_ofInt, Int.cast_zero]⟩
  | some x =>
    refine ⟨Real.log (ProbabilityTheory.gaussianPDFReal mu (variance sigma) x), ?_⟩
    simp only [newGaussianParams, Leaf.value, hz, hI, Bool.false_eq_true, if_false]
    rw [XR.g_normLogProb, XR.g_ofInt, normLogProb_fin mu sigma _ hs]

theorem storeVals_logs {t : PNode → Option XR} (ht : Logs t) : ∀ (cs : List PNode), ∃ r, storeVals t cs (cs.map fun _ => (ofInt 1 : XR)) = some r ∧
    ∀ vs, r = some vs → vs.length = cs.length ∧ ∀ v ∈ vs, IsLogProb v := by
  intro cs
  induction cs with
  | nil => exact ⟨some [], rfl, by rintro vs h; cases h; simp⟩
  | cons c cs ih =>
    obtain ⟨r, h1, h2⟩ := ih
    rw [List.map_cons]
    unfold storeVals
    cases hc : t c with
    | none => exact ⟨none, rfl, by simp⟩
    | some v =>
      dsimp only
      rw [h1, Option.map_some]
      refine ⟨_, rfl, ?_⟩
      intro vs hvs
      obtain ⟨vs', h3, rfl⟩ := Option.map_eq_some_iff.1 hvs
      obtain ⟨h4, h5⟩ := h2 vs' h3
      refine ⟨by simp [h4], ?_⟩
      intro x hx
      rcases List.mem_cons.1 hx with rfl | hx
      · exact Spec.IsLogProb.add (ht c v hc) (by simp [XR.log])
      · exact h5 x hx

/-- `StoreInference` keeps the table free of anything but logarithms, whatever the order. -/
theorem storeInto_logs {N : Net PNode XR} {I : VarSet} (hl : ∀ n l, N.kind n = .leaf l → ∃ a, l.value I = some (XR.fin a))
    (hw : ∀ n cs ws, N.kind n = .sum cs ws → ws = cs.map fun _ => ofInt 1) : ∀ (O : List PNode) (t : PNode → Option XR), Logs t → ∃ t', storeInto N I t O = some t' ∧ Logs t' := by
  intro O
  induction O with
  | nil => intro t ht; exact ⟨t, rfl, ht⟩
  | cons s O ih =>
    intro t ht
    unfold storeInto
    cases hk : N.kind s with
    | leaf l =>
      obtain ⟨a, ha⟩ := hl s l hk
      dsimp only
      rw [ha, Option.bind_some]
      exact ih _ (ht.update s (isLogProb_fin a))
    | sum cs ws =>
      obtain rfl := hw s cs ws hk
      dsimp only
      obtain ⟨r, h1, h2⟩ := storeVals_logs ht cs
      rw [h1, Option.bind_some]
      cases r with
      | none => exact ⟨t, rfl, ht⟩
      | some vs =>
        obtain ⟨h3, h4⟩ := h2 vs rfl
        dsimp only
        by_cases h0 : cs.length = 0
        · rw [if_pos h0, Option.bind_some]
          exact ih _ (ht.update s isLogProb_ninf)
        · rw [if_neg h0]
          obtain ⟨v, h5, h6, _⟩ := logSumExp_spec (l := vs) (by rintro rfl; exact h0 h3.symm) h4
          rw [h5, Option.bind_some]
          exact ih _ (ht.update s h6)
    | product cs =>
      dsimp only
      refine ih _ (ht.update s ?_)
      have : ∀ v ∈ cs.map fun c => (t c).getD (ofInt 0), IsLogProb v := by
        intro v hv
        obtain ⟨c, _, rfl⟩ := List.mem_map.1 hv
        exact ht.single c
      exact (prodCompute_spec _ this).1

/-- The memory between two regions. -/
structure PoonOk (w h r : Nat) (st : PState XR) : Prop where
  regions : RegionsOk w h st.L
  tab : Logs st.tab
  counts : ∀ k i, st.counts (.sum k i) = none
  pixels : ∀ k, IsPixel w h k → ∃ R gs, st.L k = some R ∧ R.inner = .gauss gs ∧ gs ≠ []
  proper : ∀ k R gs, st.L k = some R → R.inner = .gauss gs → ∀ p ∈ gs, ProperPair p
  sums : ∀ k ∈ sumRects w h r, ∃ R ss, st.L k = some R ∧ R.inner = .sums ss ∧ 0 < ss.length ∧ R.step = stepOf r k ∧ R.best.length = ss.length
  kids : ∀ k R ss, st.L k = some R → R.inner = .sums ss → ∀ kids ∈ ss, ∀ c ∈ kids, st.made c.1 = true

/-- The region at `k` has a chosen node. -/
def Ready (L : Rect → Option (PRegion XR)) (k : Rect) : Prop := ∃ R i n, L k = some R ∧ R.mapIndex = some i ∧ R.node k i = some n

theorem Ready.update {L : Rect → Option (PRegion XR)} {k k' : Rect} (h : Ready L k') (hk : k' ≠ k) (R : PRegion XR) : Ready (Function.update L k (some R)) k' := by
  obtain ⟨R', i, n, h1, h2, h3⟩ := h
  exact ⟨R', i, n, by rw [Function.update_of_ne hk]; exact h1, h2, h3⟩

theorem PoonOk.leaves {w h r : Nat} {st : PState XR} (hst : PoonOk w h r st) (I : VarSet) (n : PNode) (l : Leaf XR) (hk : (st.net w).kind n = .leaf l) : ∃ a, l.value I = some (XR.fin a) := by
  cases n with
  | gauss k i =>
    rcases net_gauss_cases st w k i with ⟨R, gs, p, h1, h2, h3⟩ | h4
    · rw [net_gauss h1 h2 h3] at hk
      cases hk
      exact proper_value (hst.proper k R gs h1 h2 p (List.mem_of_getElem? h3)) I _
    · rw [h4] at hk
      cases hk
  | sum k i => rcases net_sum_cases st w k i with ⟨_, _, _, _, _, _, e⟩ | e <;> rw [e] at hk <;> cases hk
  | prod d => rw [net_prod] at hk; cases hk

theorem PoonOk.weights {w h r : Nat} {st : PState XR} (hst : PoonOk w h r st) (n : PNode) (cs : List PNode) (ws : List XR) (hk : (st.net w).kind n = .sum cs ws) : ws = cs.map fun _ => ofInt 1 := by
  have h0 : ∀ {cs : List PNode} {ws : List XR}, Kind.sum (F := XR) [] [] = .sum cs ws → ws = cs.map fun _ => (ofInt 1 : XR) := by
    intro cs ws h
    cases h
    rfl
  cases n with
  | gauss k i =>
    rcases net_gauss_cases st w k i with ⟨R, gs, p, h1, h2, h3⟩ | h4
    · rw [net_gauss h1 h2 h3] at hk
      cases hk
    · exact h0 (h4.symm.trans hk)
  | sum k i =>
    rcases net_sum_cases st w k i with ⟨R, ss, kids, h1, h2, h3, e⟩ | e
    · rw [e] at hk
      cases hk
      rw [List.map_map]
      apply List.map_congr_left
      intro c hc
      exact ((hst.regions k R h1).kids ss h2 kids (List.mem_of_getElem? h3) c hc).2
    · exact h0 (e.symm.trans hk)
  | prod d => rw [net_prod] at hk; cases hk

theorem poonInfer_logs {w h r : Nat} {st : PState XR} (hst : PoonOk w h r st) (ord : PState XR → PNode → List PNode) (I : VarSet) {t : PNode → Option XR} (ht : Logs t) (draws : Nat) (s : PNode) :
    ∃ t', poonInfer w ord I { st with tab := t, draws := draws } s = some t' ∧ Logs t' := by
  unfold poonInfer
  split
  · exact ⟨t, rfl, ht⟩
  · exact storeInto_logs (N := ({ st with tab := t, draws := draws } : PState XR).net w) (hst.leaves I) hst.weights _ t ht

/-- The candidates when all parts have a chosen node. -/
theorem cand_total {st : PState XR} (ht : Logs st.tab) :
    ∀ (l : List (Rect × Rect)) (acc : List Decomp × XR), (∀ pq ∈ l, Ready st.L pq.1 ∧ Ready st.L pq.2) → IsLogProb acc.2 →
      (∀ d ∈ acc.1, (∃ S n, st.L d.p = some S ∧ S.node d.p d.r = some n) ∧ ∃ T n, st.L d.q = some T ∧ T.node d.q d.s = some n) →
      ∃ D, l.foldlM (candStep st) acc = some D ∧ ((acc.1 ≠ [] ∨ l ≠ []) → D.1 ≠ []) ∧ IsLogProb D.2 ∧
        ∀ d ∈ D.1, (∃ S n, st.L d.p = some S ∧ S.node d.p d.r = some n) ∧ ∃ T n, st.L d.q = some T ∧ T.node d.q d.s = some n := by
  intro l
  induction l with
  | nil =>
    intro acc _ h1 h2
    exact ⟨acc, rfl, by simp, h1, h2⟩
  | cons pq l ih =>
    intro acc hl h1 h2
    obtain ⟨⟨S, i, s, e1, e2, e3⟩, T, j, t, f1, f2, f3⟩ := hl pq List.mem_cons_self
    have hstep : ∃ acc', candStep st acc pq = some acc' ∧ acc'.1 ≠ [] ∧ IsLogProb acc'.2 ∧
        ∀ d ∈ acc'.1, (∃ S n, st.L d.p = some S ∧ S.node d.p d.r = some n) ∧ ∃ T n, st.L d.q = some T ∧ T.node d.q d.s = some n := by
      unfold candStep
      simp only [e1, e2, e3, f1, f2, f3, Option.bind_some]
      have hm : IsLogProb (if GoFloat.eq (single st.tab s) (ninf : XR) || GoFloat.eq (single st.tab t) (ninf : XR) then (ninf : XR) else GoFloat.add (single st.tab s) (single st.tab t)) := by
        split
        · exact isLogProb_ninf
        · exact Spec.IsLogProb.add (ht.single s) (ht.single t)
      generalize (if GoFloat.eq (single st.tab s) (ninf : XR) || GoFloat.eq (single st.tab t) (ninf : XR) then (ninf : XR) else GoFloat.add (single st.tab s) (single st.tab t)) = mv at hm ⊢
      have hd : ∀ d ∈ [(⟨pq.1, pq.2, i, j⟩ : Decomp)], (∃ S n, st.L d.p = some S ∧ S.node d.p d.r = some n) ∧ ∃ T n, st.L d.q = some T ∧ T.node d.q d.s = some n := by
        intro d hd
        rw [List.mem_singleton] at hd
        subst hd
        exact ⟨⟨S, s, e1, e3⟩, T, t, f1, f3⟩
      by_cases hc : (acc.1.isEmpty || GoFloat.lt acc.2 mv) = true
      · rw [if_pos hc, if_pos hm.self_eq]
        exact ⟨_, rfl, by simp, hm, by simpa using hd⟩
      · rw [if_neg hc]
        have hne : acc.1 ≠ [] := by
          intro h0
          rw [h0] at hc
          simp at hc
        split
        · refine ⟨_, rfl, by simp, h1, ?_⟩
          intro d hd'
          rcases List.mem_append.1 hd' with hd' | hd'
          · exact h2 d hd'
          · exact hd d hd'
        · exact ⟨acc, rfl, hne, h1, h2⟩
    obtain ⟨acc', g1, g2, g3, g4⟩ := hstep
    obtain ⟨D, k1, k2, k3, k4⟩ := ih acc' (fun x hx => hl x (List.mem_cons_of_mem _ hx)) g3 g4
    refine ⟨D, ?_, fun _ => k2 (Or.inl g2), k3, k4⟩
    rw [List.foldlM_cons, g1]
    exact k1

/-- The best children of a sum. -/
theorem child_fold {t : PNode → Option XR} (ht : Logs t) {z : XR} (hz : IsLogProb z) : ∀ (l : List (Decomp × XR)) (acc : List Decomp × XR), IsLogProb acc.2 →
    IsLogProb (l.foldl (childStep t z) acc).2 ∧ ((acc.1 ≠ [] ∨ l ≠ []) → (l.foldl (childStep t z) acc).1 ≠ []) ∧
      ∀ d ∈ (l.foldl (childStep t z) acc).1, d ∈ acc.1 ∨ ∃ c ∈ l, d = c.1 := by
  intro l
  induction l with
  | nil => intro acc h; exact ⟨h, by simp, fun d hd => Or.inl hd⟩
  | cons c l ih =>
    intro acc h
    have hv := (logSumExpPair_spec hz (ht.single (.prod c.1))).1
    have hstep : IsLogProb (childStep t z acc c).2 ∧ (childStep t z acc c).1 ≠ [] ∧ ∀ d ∈ (childStep t z acc c).1, d ∈ acc.1 ∨ d = c.1 := by
      unfold childStep
      dsimp only
      by_cases hc : (acc.1.isEmpty || GoFloat.lt acc.2 (logSumExpPair z (single t (.prod c.1)))) = true
      · rw [if_pos hc, if_pos hv.self_eq]
        refine ⟨hv, by simp, ?_⟩
        intro d hd
        right
        simpa using hd
      · rw [if_neg hc]
        have hne : acc.1 ≠ [] := by
          intro h0
          rw [h0] at hc
          simp at hc
        split
        · refine ⟨h, by simp, ?_⟩
          intro d hd
          rcases List.mem_append.1 hd with hd | hd
          · exact Or.inl hd
          · right
            simpa using hd
        · exact ⟨h, hne, fun d hd => Or.inl hd⟩
    rw [List.foldl_cons]
    obtain ⟨h1, h2, h3⟩ := ih (childStep t z acc c) hstep.1
    refine ⟨h1, fun _ => h2 (Or.inl hstep.2.1), ?_⟩
    intro d hd
    rcases h3 d hd with hd | ⟨c', hc', hd⟩
    · rcases hstep.2.2 d hd with hd | hd
      · exact Or.inl hd
      · exact Or.inr ⟨c, List.mem_cons_self, hd⟩
    · exact Or.inr ⟨c', List.mem_cons_of_mem _ hc', hd⟩

/-- The variables of the loop over the sums of a region with `n` sums. -/
structure UsedOk (st : PState XR) (cd : Decomp) (n : Nat) (u : Used XR) : Prop where
  tab : Logs u.tab
  best : u.best.length = n
  bd : ∀ d ∈ u.bd, d = cd ∨ st.made d = true
  opts : ∀ i ∈ u.opts, ∃ d, u.best[i]? = some (some d) ∧ (d = cd ∨ st.made d = true)

theorem used_total {pick : Nat → Nat → Nat} (hpick : GoodPick pick) {w h r : Nat} {ord : PState XR → PNode → List PNode} {I : VarSet} {st : PState XR} (hst : PoonOk w h r st) {k : Rect} {cd : Decomp}
    {mp : XR} (hmp : IsLogProb mp) {n : Nat} : ∀ (l : List (List (Decomp × XR) × Nat)) (u : Used XR), UsedOk st cd n u → (∀ x ∈ l, x.2 < n ∧ ∀ c ∈ x.1, st.made c.1 = true) →
      ∃ u', l.foldlM (usedStep pick (poonInfer w ord I) st k cd mp) u = some u' ∧ UsedOk st cd n u' := by
  intro l
  induction l with
  | nil => intro u hu _; exact ⟨u, rfl, hu⟩
  | cons x l ih =>
    intro u hu hl
    obtain ⟨hx1, hx2⟩ := hl x List.mem_cons_self
    have hstep : ∃ u', usedStep pick (poonInfer w ord I) st k cd mp u x = some u' ∧ UsedOk st cd n u' := by
      unfold usedStep
      by_cases h0 : x.1.length = 0
      · rw [if_pos h0]
        exact ⟨u, rfl, hu⟩
      rw [if_neg h0]
      dsimp only
      obtain ⟨t, ht, hlogs⟩ := poonInfer_logs hst ord I hu.tab u.draws (.sum k x.2)
      rw [ht, Option.bind_some]
      have hc0 : single st.counts (.sum k x.2) = XR.fin 0 := by
        unfold single
        rw [hst.counts]
        simp
      rw [hc0]
      have hsv := hlogs.single (.sum k x.2)
      generalize single t (.sum k x.2) = sv at hsv ⊢
      have hz : IsLogProb (GoFloat.add sv (GoFloat.log (XR.fin 0))) := hsv.add (by simp)
      obtain ⟨ha1, ha2, ha3⟩ := child_fold hlogs hz x.1 (u.bd, ofInt 0) (by simp)
      generalize x.1.foldl (childStep t (GoFloat.add sv (GoFloat.log (XR.fin 0)))) (u.bd, ofInt 0) = a at ha1 ha2 ha3 ⊢
      have hane := ha2 (Or.inr (by intro h; rw [h] at h0; exact h0 rfl))
      have hb : ∃ b : List Decomp × XR, (if st.made cd then a else
          let v := if GoFloat.eq sv (ninf : XR) then mp else logSumExpPair mp (GoFloat.add sv (GoFloat.log (XR.fin 0)))
          if a.1.isEmpty || GoFloat.lt a.2 v then ([cd], v) else a) = b ∧ IsLogProb b.2 ∧ b.1 ≠ [] ∧ ∀ d ∈ b.1, d = cd ∨ st.made d = true := by
        have hgood : ∀ d ∈ a.1, d = cd ∨ st.made d = true := by
          intro d hd
          rcases ha3 d hd with hd | ⟨c, hc, rfl⟩
          · exact hu.bd d hd
          · exact Or.inr (hx2 c hc)
        refine ⟨_, rfl, ?_⟩
        split
        · exact ⟨ha1, hane, hgood⟩
        · dsimp only
          have hv : IsLogProb (if GoFloat.eq sv (ninf : XR) then mp else logSumExpPair mp (GoFloat.add sv (GoFloat.log (XR.fin 0)))) := by
            split
            · exact hmp
            · exact (logSumExpPair_spec hmp hz).1
          generalize (if GoFloat.eq sv (ninf : XR) then mp else logSumExpPair mp (GoFloat.add sv (GoFloat.log (XR.fin 0)))) = v at hv ⊢
          split
          · exact ⟨hv, by simp, by simp⟩
          · exact ⟨ha1, hane, hgood⟩
      obtain ⟨b, hb0, hb1, hb2, hb3⟩ := hb
      dsimp only at hb0
      rw [hb0]
      obtain ⟨d, hd, hdm, _⟩ := drawFrom_good hpick u.draws hb2
      rw [hd, Option.bind_some]
      have hset : setIdx u.best x.2 (some d) = some (u.best.set x.2 (some d)) := by
        unfold setIdx
        rw [if_pos (by rw [hu.best]; exact hx1)]
      rw [hset, Option.bind_some]
      refine ⟨_, rfl, ?_, by simp [hu.best], hb3, ?_⟩
      · refine hlogs.update _ ?_
        have : GoFloat.log (GoFloat.add (XR.fin 0) (ofInt 1)) = XR.fin 0 := by simp [XR.log]
        rw [this]
        exact hb1.sub_zero
      · intro i hi
        dsimp only at hi ⊢
        have hi' : i ∈ u.opts ∨ i = x.2 := by
          by_cases hc : (u.opts.isEmpty || GoFloat.lt u.maxSum sv) = true
          · rw [if_pos hc] at hi
            dsimp only at hi
            split at hi
            · right
              simpa using hi
            · simp at hi
          · rw [if_neg hc] at hi
            dsimp only at hi
            split at hi
            · rcases List.mem_append.1 hi with hi | hi
              · exact Or.inl hi
              · right
                simpa using hi
            · exact Or.inl hi
        by_cases hix : i = x.2
        · subst hix
          exact ⟨d, by rw [List.getElem?_set_self (by rw [hu.best]; exact hx1)], hb3 d hdm⟩
        · rw [List.getElem?_set_ne (Ne.symm hix)]
          exact hu.opts i (hi'.resolve_right hix)
    obtain ⟨u', h1, h2⟩ := hstep
    obtain ⟨u'', h3, h4⟩ := ih u' h2 (fun x hx => hl x (List.mem_cons_of_mem _ hx))
    refine ⟨u'', ?_, h4⟩
    rw [List.foldlM_cons, h1]
    exact h3

/-- One region: it gets a chosen node, and the memory stays in order. -/
theorem compMap_total {pick : Nat → Nat → Nat} (hpick : GoodPick pick) {w h r : Nat} {ord : PState XR → PNode → List PNode} {I : VarSet} {st : PState XR} (hst : PoonOk w h r st) {k : Rect}
    (hk : k ∈ sumRects w h r) (hpix : ¬ IsPixel w h k) (hne : splits k (stepOf r k) ≠ []) (hparts : ∀ pq ∈ splits k (stepOf r k), Ready st.L pq.1 ∧ Ready st.L pq.2) :
    ∃ st', compMap pick (poonInfer w ord I) st k = some st' ∧ PoonOk w h r st' ∧ Ready st'.L k ∧ ∀ k', Ready st.L k' → Ready st'.L k' := by
  obtain ⟨R, ss, hR, hin, hpos, hstep, hbest⟩ := hst.sums k hk
  -- the memory after the reset of `mapIndex`
  obtain ⟨st1, hst1e⟩ : ∃ st1 : PState XR, st1 = { st with L := Function.update st.L k (some { R with mapIndex := none }) } := ⟨_, rfl⟩
  have hgen : ∀ (R' : PRegion XR) (ss' : List (List (Decomp × XR))) (tab counts : PNode → Option XR) (made : Decomp → Bool) (draws : Nat), RegionsOk w h (Function.update st.L k (some R')) →
      R'.inner = .sums ss' → ss'.length = ss.length → R'.step = R.step → R'.best.length = R.best.length → Logs tab → (∀ k i, counts (.sum k i) = none) → (∀ d, st.made d = true → made d = true) →
      (∀ kids ∈ ss', ∀ c ∈ kids, made c.1 = true) → PoonOk w h r ⟨Function.update st.L k (some R'), tab, counts, made, draws⟩ := by
    intro R' ss' tab counts made draws h1 h2 h3 h4 h5 h6 h7 h8 h9
    refine ⟨h1, h6, h7, ?_, ?_, ?_, ?_⟩
    · intro k' hk'
      have : k' ≠ k := by rintro rfl; exact hpix hk'
      dsimp only
      rw [Function.update_of_ne this]
      exact hst.pixels k' hk'
    · intro k' R'' gs hR'' hgs
      by_cases hkk : k' = k
      · subst hkk
        dsimp only at hR''
        rw [Function.update_self] at hR''
        cases hR''
        rw [h2] at hgs
        cases hgs
      · dsimp only at hR''
        rw [Function.update_of_ne hkk] at hR''
        exact hst.proper k' R'' gs hR'' hgs
    · intro k' hk'
      by_cases hkk : k' = k
      · subst hkk
        exact ⟨R', ss', Function.update_self .., h2, by omega, h4.trans hstep, by omega⟩
      · dsimp only
        rw [Function.update_of_ne hkk]
        exact hst.sums k' hk'
    · intro k' R'' ss'' hR'' hss kids hkids c hc
      by_cases hkk : k' = k
      · subst hkk
        dsimp only at hR''
        rw [Function.update_self] at hR''
        cases hR''
        rw [h2] at hss
        cases hss
        exact h9 kids hkids c hc
      · dsimp only at hR''
        rw [Function.update_of_ne hkk] at hR''
        exact h8 _ (hst.kids k' R'' ss'' hR'' hss kids hkids c hc)
  have hRok := hst.regions k R hR
  have hok1 : RegionsOk w h (Function.update st.L k (some { R with mapIndex := none })) := hst.regions.update ⟨hRok.unit, hRok.kids, hRok.best⟩
  have hs1 : PoonOk w h r st1 := by
    subst hst1e
    exact hgen { R with mapIndex := none } ss _ _ _ _ hok1 hin rfl rfl rfl hst.tab hst.counts (fun _ h => h) (hst.kids k R ss hR hin)
  have hparts1 : ∀ pq ∈ splits k (stepOf r k), Ready st1.L pq.1 ∧ Ready st1.L pq.2 := by
    intro pq hpq
    have hs := mem_splits hpq
    have hi : pq.1 ≠ k ∧ pq.2 ≠ k := by
      obtain ⟨p, q⟩ := pq
      obtain ⟨x1, y1, x2, y2⟩ := k
      rcases hs with ⟨x, h1, h2, h3, h4⟩ | ⟨y, h1, h2, h3, h4⟩ <;> dsimp only at h1 h2 h3 h4 <;> subst h3 h4 <;> simp only [ne_eq, Rect.mk.injEq] <;> omega
    subst hst1e
    exact ⟨(hparts pq hpq).1.update hi.1 _, (hparts pq hpq).2.update hi.2 _⟩
  obtain ⟨D, hD, hD1, hD2, hD3⟩ := cand_total hs1.tab (splits k (stepOf r k)) ([], ninf) hparts1 isLogProb_ninf (by simp)
  have hDne := hD1 (Or.inr hne)
  obtain ⟨ct, hct, hctlt⟩ : ∃ ct : Nat × Nat, (if ((ss.zipIdx.filter fun x => x.1.length = 0).map (·.2)).length = 0 then some (0, st.draws)
      else (drawFrom pick st.draws ((ss.zipIdx.filter fun x => x.1.length = 0).map (·.2))).map fun i => (i, st.draws + 1)) = some ct ∧ ct.1 < ss.length := by
    split
    · exact ⟨_, rfl, hpos⟩
    · rename_i h0
      obtain ⟨i, h1, h2, _⟩ := drawFrom_good hpick st.draws (l := (ss.zipIdx.filter fun x => x.1.length = 0).map (·.2)) (by intro h; rw [h] at h0; exact h0 rfl)
      refine ⟨(i, st.draws + 1), by rw [h1]; rfl, ?_⟩
      obtain ⟨x, hx, rfl⟩ := List.mem_map.1 h2
      obtain ⟨_, h3, _⟩ := List.mem_zipIdx (List.mem_filter.1 hx).1
      simpa using h3
  obtain ⟨cd, hcd, hcdm, _⟩ := drawFrom_good hpick ct.2 hDne
  obtain ⟨u, hu, huok⟩ := used_total hpick hs1 (ord := ord) (I := I) (k := k) (cd := cd) (mp := D.2) hD2 (n := ss.length) ss.zipIdx ⟨st.tab, R.best, [], [], ninf, ct.2 + 1⟩
    ⟨hst.tab, hbest, by simp, by simp⟩ (by
      intro x hx
      obtain ⟨_, h2, h3⟩ := List.mem_zipIdx hx
      refine ⟨by simpa using h2, ?_⟩
      intro c hc
      subst hst1e
      exact hst.kids k R ss hR hin x.1 (by rw [h3]; exact List.getElem_mem _) c hc)
  have hnode : (PRegion.node { R with mapIndex := none } k ct.1 : Option PNode) = some (.sum k ct.1) := by
    unfold PRegion.node
    rw [hin]
    dsimp only
    rw [if_pos hctlt]
  have hset : setIdx u.best ct.1 (some cd) = some (u.best.set ct.1 (some cd)) := by
    unfold setIdx
    rw [if_pos (by rw [huok.best]; exact hctlt)]
  have hc0 : single st.counts (.sum k ct.1) = XR.fin 0 := by
    unfold single
    rw [hst.counts]
    simp
  have hv : IsLogProb (GoFloat.sub D.2 (GoFloat.log (GoFloat.add (single st.counts (.sum k ct.1)) (ofInt 1)))) := by
    rw [hc0]
    have : GoFloat.log (GoFloat.add (XR.fin 0) (ofInt 1)) = XR.fin 0 := by simp [XR.log]
    rw [this]
    exact hD2.sub_zero
  obtain ⟨opts, hopts⟩ : ∃ opts, opts = if u.opts.isEmpty || GoFloat.lt u.maxSum (GoFloat.sub D.2 (GoFloat.log (GoFloat.add (single st.counts (.sum k ct.1)) (ofInt 1)))) then [ct.1] else u.opts := ⟨_, rfl⟩
  have hone : opts ≠ [] ∧ ∀ i ∈ opts, i = ct.1 ∨ i ∈ u.opts := by
    rw [hopts]
    split
    · simp
    · rename_i h0
      refine ⟨?_, fun i hi => Or.inr hi⟩
      intro h
      rw [h] at h0
      simp at h0
  obtain ⟨i, hi, him, _⟩ := drawFrom_good hpick u.draws hone.1
  obtain ⟨bd, hbd, hgood⟩ : ∃ bd, (u.best.set ct.1 (some cd))[i]? = some (some bd) ∧ (bd = cd ∨ st1.made bd = true) := by
    by_cases hic : i = ct.1
    · subst hic
      exact ⟨cd, by rw [List.getElem?_set_self (by rw [huok.best]; exact hctlt)], Or.inl rfl⟩
    · rw [List.getElem?_set_ne (Ne.symm hic)]
      exact huok.opts i ((hone.2 i him).resolve_left hic)
  have hilt : i < ss.length := by
    have := (List.getElem?_eq_some_iff.1 hbd).1
    rw [List.length_set, huok.best] at this
    exact this
  have hrun : compMap pick (poonInfer w ord I) st k = placeProduct { st1 with tab := Function.update u.tab (.sum k ct.1) (some (GoFloat.sub D.2 (GoFloat.log (GoFloat.add (single st.counts (.sum k ct.1)) (ofInt 1))))), draws := u.draws + 1 }
      k { R with mapIndex := some i, best := u.best.set ct.1 (some cd) } ss i bd := by
    unfold compMap
    subst hst1e
    obtain ⟨inner0, step0, mi0, best0⟩ := R
    dsimp only at hin hstep
    subst hin hstep
    rw [hR, Option.bind_some]
    dsimp only
    rw [hct, Option.bind_some, hD, Option.bind_some, hcd, Option.bind_some, hu, Option.bind_some, hnode, Option.bind_some, hset, Option.bind_some, ← hopts, hi, Option.bind_some, hbd, Option.bind_some,
      Option.bind_some]
  have htab : Logs (Function.update u.tab (.sum k ct.1) (some (GoFloat.sub D.2 (GoFloat.log (GoFloat.add (single st.counts (.sum k ct.1)) (ofInt 1)))))) := huok.tab.update _ hv
  have hbl : (u.best.set ct.1 (some cd)).length = R.best.length := by rw [List.length_set, huok.best, hbest]
  have hup : ∀ R' : PRegion XR, Function.update st1.L k (some R') = Function.update st.L k (some R') := by
    intro R'
    subst hst1e
    exact Function.update_idem ..
  have hcounts : ∀ (d : Decomp) (v : Option XR) (k : Rect) (i : Nat), Function.update st.counts (.prod d) v (.sum k i) = none := by
    intro d v k i
    rw [Function.update_of_ne (by simp)]
    exact hst.counts k i
  have hmade1 : st1.made = st.made := by rw [hst1e]
  have hcounts1 : st1.counts = st.counts := by rw [hst1e]
  have hready : ∀ (R' : PRegion XR) (ss' : List (List (Decomp × XR))), R'.inner = .sums ss' → ss'.length = ss.length → R'.mapIndex = some i →
      Ready (Function.update st.L k (some R')) k ∧ ∀ k', Ready st.L k' → Ready (Function.update st.L k (some R')) k' := by
    intro R' ss' h1 h2 h3
    have h4 : Ready (Function.update st.L k (some R')) k := by
      refine ⟨R', i, .sum k i, Function.update_self .., h3, ?_⟩
      unfold PRegion.node
      rw [h1]
      dsimp only
      rw [if_pos (by omega)]
    refine ⟨h4, fun k' h5 => ?_⟩
    by_cases hkk : k' = k
    · subst hkk
      exact h4
    · exact h5.update hkk R'
  have hdone : ∃ st', compMap pick (poonInfer w ord I) st k = some st' := by
    rw [hrun]
    unfold placeProduct
    dsimp only
    split
    · exact ⟨_, rfl⟩
    · rename_i hm
      have hcdd : bd = cd := hgood.resolve_right hm
      subst hcdd
      obtain ⟨⟨S, n1, h1, h2⟩, T, n2, h3, h4⟩ := hD3 bd hcdm
      rw [h1, h3, Option.bind_some, Option.bind_some, h2, h4, Option.bind_some, Option.bind_some, List.getElem?_eq_getElem hilt, Option.bind_some]
      exact ⟨_, rfl⟩
  obtain ⟨st', hst'⟩ := hdone
  refine ⟨st', hst', ?_⟩
  have hok' : RegionsOk w h st'.L := compMap_ok hst.regions hst'
  rw [hrun] at hst'
  unfold placeProduct at hst'
  dsimp only at hst'
  rw [hmade1, hcounts1] at hst'
  split at hst'
  · rename_i hm
    cases hst'
    rw [hup] at hok' ⊢
    refine ⟨hgen { R with mapIndex := some i, best := u.best.set ct.1 (some cd) } ss _ _ _ _ hok' hin rfl rfl hbl htab (hcounts bd _) (fun _ h => h) (hst.kids k R ss hR hin), ?_⟩
    exact hready _ ss hin rfl rfl
  · obtain ⟨_, _, hst2⟩ := Option.bind_eq_some_iff.1 hst'
    obtain ⟨_, _, hst3⟩ := Option.bind_eq_some_iff.1 hst2
    obtain ⟨_, _, hst4⟩ := Option.bind_eq_some_iff.1 hst3
    obtain ⟨_, _, hst5⟩ := Option.bind_eq_some_iff.1 hst4
    obtain ⟨kids, hkids, hst6⟩ := Option.bind_eq_some_iff.1 hst5
    cases hst6
    rw [hup] at hok' ⊢
    refine ⟨hgen { R with inner := .sums (ss.set i (kids ++ [(bd, ofInt 1)])), mapIndex := some i, best := u.best.set ct.1 (some cd) } _ _ _ _ _ hok' rfl (List.length_set ..) rfl hbl htab (hcounts bd _) ?_ ?_, ?_⟩
    · intro d hd
      by_cases hdd : d = bd
      · subst hdd
        exact Function.update_self ..
      · rw [Function.update_of_ne hdd]
        exact hd
    · intro kids' hkids' c hc
      rcases List.mem_or_eq_of_mem_set hkids' with h1 | rfl
      · have := hst.kids k R ss hR hin kids' h1 c hc
        by_cases hdd : c.1 = bd
        · rw [hdd]
          exact Function.update_self ..
        · rw [Function.update_of_ne hdd]
          exact this
      · rcases List.mem_append.1 hc with hc | hc
        · have := hst.kids k R ss hR hin kids (List.mem_of_getElem? hkids) c hc
          by_cases hdd : c.1 = bd
          · rw [hdd]
            exact Function.update_self ..
          · rw [Function.update_of_ne hdd]
            exact this
        · rw [List.mem_singleton] at hc
          subst hc
          exact Function.update_self ..
    · exact hready _ _ rfl (List.length_set ..) rfl

/-- All regions of one instance: each comes after its parts. -/
theorem regions_total {pick : Nat → Nat → Nat} (hpick : GoodPick pick) {w h r : Nat} {ord : PState XR → PNode → List PNode} {I : VarSet} :
    ∀ (l : List Rect) {P : Rect → Prop} {st : PState XR}, PoonOk w h r st → (∀ k, P k → Ready st.L k) → (∀ k ∈ l, k ∈ sumRects w h r ∧ ¬ IsPixel w h k ∧ splits k (stepOf r k) ≠ []) →
      (l.Pairwise fun a b => ¬ b.Inside a) → (∀ k ∈ l, ∀ pq ∈ splits k (stepOf r k), (P pq.1 ∨ pq.1 ∈ l) ∧ (P pq.2 ∨ pq.2 ∈ l)) →
      ∃ st', l.foldlM (compMap pick (poonInfer w ord I)) st = some st' ∧ PoonOk w h r st' ∧ (∀ k, Ready st.L k → Ready st'.L k) ∧ ∀ k ∈ l, Ready st'.L k := by
  intro l
  induction l with
  | nil =>
    intro P st hst _ _ _ _
    exact ⟨st, rfl, hst, fun _ h => h, by simp⟩
  | cons k l ih =>
    intro P st hst hP hs hpw hparts
    rw [List.pairwise_cons] at hpw
    have hin : ∀ pq ∈ splits k (stepOf r k), P pq.1 ∧ P pq.2 := by
      intro pq hpq
      have hs := mem_splits hpq
      have hi : pq.1.Inside k ∧ pq.2.Inside k ∧ pq.1 ≠ k ∧ pq.2 ≠ k := by
        obtain ⟨p, q⟩ := pq
        obtain ⟨x1, y1, x2, y2⟩ := k
        rcases hs with ⟨x, h1, h2, h3, h4⟩ | ⟨y, h1, h2, h3, h4⟩ <;> dsimp only at h1 h2 h3 h4 <;> subst h3 h4 <;>
          simp only [Rect.Inside, ne_eq, Rect.mk.injEq] <;> omega
      obtain ⟨h1, h2⟩ := hparts k List.mem_cons_self pq hpq
      constructor
      · rcases h1 with h1 | h1
        · exact h1
        · rcases List.mem_cons.1 h1 with h1 | h1
          · exact absurd h1 hi.2.2.1
          · exact absurd hi.1 (hpw.1 _ h1)
      · rcases h2 with h2 | h2
        · exact h2
        · rcases List.mem_cons.1 h2 with h2 | h2
          · exact absurd h2 hi.2.2.2
          · exact absurd hi.2.1 (hpw.1 _ h2)
    obtain ⟨g1, g2, g3⟩ := hs k List.mem_cons_self
    obtain ⟨st1, h1, h2, h3, h4⟩ := compMap_total hpick (ord := ord) (I := I) hst g1 g2 g3 (fun pq hpq => ⟨hP _ (hin pq hpq).1, hP _ (hin pq hpq).2⟩)
    obtain ⟨st2, h5, h6, h7, h8⟩ := ih (P := fun k' => P k' ∨ k' = k) h2
      (by
        rintro k' (h | rfl)
        · exact h4 _ (hP k' h)
        · exact h3)
      (fun k' hk' => hs k' (List.mem_cons_of_mem _ hk')) hpw.2
      (by
        intro k' hk' pq hpq
        obtain ⟨g1, g2⟩ := hparts k' (List.mem_cons_of_mem _ hk') pq hpq
        simp only [List.mem_cons] at g1 g2
        tauto)
    refine ⟨st2, ?_, h6, fun k' h => h7 k' (h4 k' h), ?_⟩
    · rw [List.foldlM_cons, h1]
      exact h5
    · intro k' hk'
      rcases List.mem_cons.1 hk' with rfl | hk'
      · exact h7 _ h3
      · exact h8 k' hk'

/-- The best of some Gaussians is one of them. -/
theorem bestGauss_lt {vals : List XR} (h : vals ≠ []) : ∃ i, bestGauss vals = some i ∧ i < vals.length := by
  unfold bestGauss
  have key : ∀ (l : List (XR × Nat)) (a : Option Nat × XR), (∀ x ∈ l, x.2 < vals.length) → (∀ i, a.1 = some i → i < vals.length) → (a.1.isSome ∨ l ≠ []) →
      ∃ i, (l.foldl (fun (a : Option Nat × XR) x => if a.1.isNone || GoFloat.lt a.2 x.1 then (some x.2, x.1) else a) a).1 = some i ∧ i < vals.length := by
    intro l
    induction l with
    | nil =>
      intro a _ h2 h3
      rcases h3 with h3 | h3
      · obtain ⟨i, hi⟩ := Option.isSome_iff_exists.1 h3
        exact ⟨i, hi, h2 i hi⟩
      · exact absurd rfl h3
    | cons x l ih =>
      intro a h1 h2 _
      rw [List.foldl_cons]
      apply ih _ (fun y hy => h1 y (List.mem_cons_of_mem _ hy))
      · intro i hi
        split at hi
        · cases hi
          exact h1 x List.mem_cons_self
        · exact h2 i hi
      · left
        split
        · rfl
        · rename_i hc
          cases ha : a.1 with
          | none => rw [ha] at hc; simp at hc
          | some i => rfl
  apply key
  · intro x hx
    obtain ⟨_, h2, _⟩ := List.mem_zipIdx hx
    simpa using h2
  · intro i hi
    cases hi
  · right
    intro h0
    apply h
    have := congrArg List.length h0
    simpa using this

/-- The Gaussians of one pixel. -/
theorem compUnit_total {w h r : Nat} {I : VarSet} {st : PState XR} (hst : PoonOk w h r st) (hsum : ∀ k ∈ sumRects w h r, ¬ IsPixel w h k) {x y : Nat} (hx : x < w) (hy : y < h) :
    ∃ st', compUnit w I st (x, y) = some st' ∧ PoonOk w h r st' ∧ Ready st'.L ⟨x, y, x + 1, y + 1⟩ ∧ ∀ k, Ready st.L k → Ready st'.L k := by
  obtain ⟨R, gs, hR, hgs, hne⟩ := hst.pixels _ ⟨x, y, hx, hy, rfl⟩
  obtain ⟨vals, hv, hlogs, hlen⟩ : ∃ vals : List XR, (gs.mapM fun g => (newGaussianParams ((x : Int) + (y : Int) * (w : Int)) g.1 g.2).value I) = some vals ∧ (∀ v ∈ vals, IsLogProb v) ∧ vals.length = gs.length := by
    have hp := hst.proper _ R gs hR hgs
    clear hR hgs hne
    induction gs with
    | nil => exact ⟨[], rfl, by simp, rfl⟩
    | cons p gs ih =>
      obtain ⟨vals, h1, h2, h3⟩ := ih (fun q hq => hp q (List.mem_cons_of_mem _ hq))
      obtain ⟨a, ha⟩ := proper_value (hp p List.mem_cons_self) I ((x : Int) + (y : Int) * (w : Int))
      refine ⟨.fin a :: vals, ?_, ?_, by simp [h3]⟩
      · rw [List.mapM_cons, ha, h1]
        rfl
      · intro v hv
        rcases List.mem_cons.1 hv with rfl | hv
        · exact isLogProb_fin a
        · exact h2 v hv
  have hpix : IsPixel w h ⟨x, y, x + 1, y + 1⟩ := ⟨x, y, hx, hy, rfl⟩
  obtain ⟨i, hi, hilt⟩ := bestGauss_lt (vals := vals) (by
    intro h0
    rw [h0] at hlen
    exact hne (List.length_eq_zero_iff.1 hlen.symm))
  have hrun : compUnit w I st (x, y) = some { st with L := Function.update st.L ⟨x, y, x + 1, y + 1⟩ (some { R with mapIndex := bestGauss vals }), tab := vals.zipIdx.foldl (fun t z => Function.update t (.gauss ⟨x, y, x + 1, y + 1⟩ z.2) (some z.1)) st.tab } := by
    unfold compUnit
    dsimp only
    rw [hR, Option.bind_some, hgs]
    dsimp only
    rw [hv, Option.map_some]
  refine ⟨_, hrun, ?_, ?_, ?_⟩
  · refine ⟨compUnit_ok hst.regions hrun, ?_, hst.counts, ?_, ?_, ?_, ?_⟩
    · dsimp only
      have key : ∀ (l : List (XR × Nat)) (t : PNode → Option XR), (∀ z ∈ l, IsLogProb z.1) → Logs t → Logs (l.foldl (fun t z => Function.update t (.gauss ⟨x, y, x + 1, y + 1⟩ z.2) (some z.1)) t) := by
        intro l
        induction l with
        | nil => intro t _ ht; exact ht
        | cons z l ih =>
          intro t hl ht
          rw [List.foldl_cons]
          exact ih _ (fun z hz => hl z (List.mem_cons_of_mem _ hz)) (ht.update _ (hl z List.mem_cons_self))
      apply key _ _ _ hst.tab
      intro z hz
      obtain ⟨_, _, h3⟩ := List.mem_zipIdx hz
      rw [h3]
      exact hlogs _ (List.getElem_mem _)
    · intro k hk
      by_cases hkk : k = ⟨x, y, x + 1, y + 1⟩
      · subst hkk
        exact ⟨_, gs, Function.update_self .., hgs, hne⟩
      · dsimp only
        rw [Function.update_of_ne hkk]
        exact hst.pixels k hk
    · intro k R' gs' hR' hgs'
      by_cases hkk : k = ⟨x, y, x + 1, y + 1⟩
      · subst hkk
        dsimp only at hR'
        rw [Function.update_self] at hR'
        cases hR'
        exact hst.proper _ R gs' hR hgs'
      · dsimp only at hR'
        rw [Function.update_of_ne hkk] at hR'
        exact hst.proper k R' gs' hR' hgs'
    · intro k hk
      have hkk : k ≠ ⟨x, y, x + 1, y + 1⟩ := by
        rintro rfl
        exact hsum _ hk hpix
      dsimp only
      rw [Function.update_of_ne hkk]
      exact hst.sums k hk
    · intro k R' ss hR' hss
      by_cases hkk : k = ⟨x, y, x + 1, y + 1⟩
      · subst hkk
        dsimp only at hR'
        rw [Function.update_self] at hR'
        cases hR'
        rw [hgs] at hss
        cases hss
      · dsimp only at hR'
        rw [Function.update_of_ne hkk] at hR'
        exact hst.kids k R' ss hR' hss
  · refine ⟨_, i, .gauss ⟨x, y, x + 1, y + 1⟩ i, Function.update_self .., hi, ?_⟩
    unfold PRegion.node
    rw [hgs]
    dsimp only
    rw [if_pos (by omega)]
  · intro k hk
    by_cases hkk : k = ⟨x, y, x + 1, y + 1⟩
    · subst hkk
      refine ⟨_, i, .gauss ⟨x, y, x + 1, y + 1⟩ i, Function.update_self .., hi, ?_⟩
      unfold PRegion.node
      rw [hgs]
      dsimp only
      rw [if_pos (by omega)]
    · exact hk.update hkk _

theorem units_total {w h r : Nat} {I : VarSet} (hsum : ∀ k ∈ sumRects w h r, ¬ IsPixel w h k) : ∀ (l : List (Nat × Nat)) {st : PState XR}, PoonOk w h r st → (∀ xy ∈ l, xy.1 < w ∧ xy.2 < h) →
    ∃ st', l.foldlM (compUnit w I) st = some st' ∧ PoonOk w h r st' ∧ (∀ k, Ready st.L k → Ready st'.L k) ∧ ∀ xy ∈ l, Ready st'.L ⟨xy.1, xy.2, xy.1 + 1, xy.2 + 1⟩ := by
  intro l
  induction l with
  | nil =>
    intro st hst _
    exact ⟨st, rfl, hst, fun _ h => h, by simp⟩
  | cons z l ih =>
    intro st hst hl
    obtain ⟨st1, h1, h2, h3, h4⟩ := compUnit_total (I := I) hst hsum (hl z List.mem_cons_self).1 (hl z List.mem_cons_self).2
    obtain ⟨st2, h5, h6, h7, h8⟩ := ih h2 (fun z hz => hl z (List.mem_cons_of_mem _ hz))
    refine ⟨st2, ?_, h6, fun k h => h7 k (h4 k h), ?_⟩
    · rw [List.foldlM_cons, h1]
      exact h5
    · intro xy hxy
      rcases List.mem_cons.1 hxy with rfl | hxy
      · exact h7 _ h3
      · exact h8 xy hxy

/-- One instance. -/
theorem mapInference_total {pick : Nat → Nat → Nat} (hpick : GoodPick pick) (W H r : Nat) (hr : 2 ≤ r) (ord : PState XR → PNode → List PNode) (I : VarSet) {st : PState XR}
    (hst : PoonOk (W * r) (H * r) r st) : ∃ st', mapInference pick (poonInfer (W * r) ord) (W * r) (H * r) r st I = some st' ∧ PoonOk (W * r) (H * r) r st' := by
  have hsum : ∀ k ∈ sumRects (W * r) (H * r) r, ¬ IsPixel (W * r) (H * r) k := fun k hk => sumRects_not_pixel (by omega) hk
  obtain ⟨st1, h1, h2, _, h3⟩ := units_total (I := I) hsum ((List.range (W * r)).flatMap fun x => (List.range (H * r)).map fun y => (x, y)) hst (by
    intro xy hxy
    obtain ⟨x, hx, h⟩ := List.mem_flatMap.1 hxy
    obtain ⟨y, hy, rfl⟩ := List.mem_map.1 h
    exact ⟨List.mem_range.1 hx, List.mem_range.1 hy⟩)
  obtain ⟨st2, h4, h5, _, _⟩ := regions_total hpick (ord := ord) (I := I) (sumRects (W * r) (H * r) r) (P := IsPixel (W * r) (H * r)) h2
    (by
      rintro k ⟨x, y, hx, hy, rfl⟩
      exact h3 (x, y) (List.mem_flatMap.2 ⟨x, List.mem_range.2 hx, List.mem_map.2 ⟨y, List.mem_range.2 hy, rfl⟩⟩))
    (fun k hk => ⟨hk, hsum k hk, sumRects_splits (by omega) hk⟩) (sumRects_order (by omega)) (fun k hk pq hpq => sumRects_parts (by omega) hk hpq)
  refine ⟨st2, ?_, h5⟩
  unfold mapInference
  rw [h1, Option.bind_some]
  unfold sumRects at h4
  rw [List.foldlM_append] at h4
  exact h4

/-- The Gaussians of a pixel for data without empty quantiles. -/
theorem createUnit_proper (w x y g : Nat) (D : List VarSet) (hg : 2 ≤ g) (h1 : g ≤ D.length) (h2 : D.length < 2 * g ∨ g * (g - 1) < 2 * D.length) :
    ∃ gs, createUnitRegion (F := XR) w x y g D = some ⟨.gauss gs, 1, none, []⟩ ∧ gs ≠ [] ∧ ∀ p ∈ gs, ProperPair p := by
  unfold createUnitRegion
  dsimp only
  rw [if_neg (by omega)]
  have hl : ((D.map fun I => (I ((x : Int) + (y : Int) * (w : Int))).getD 0).mergeSort (· ≤ ·)).length = D.length := by simp
  obtain ⟨G, hG, hrun⟩ := quantile_gauss (g := g) (X := (D.map fun I => (I ((x : Int) + (y : Int) * (w : Int))).getD 0).mergeSort (· ≤ ·)) (by omega) (by rw [hl]; exact h1) (by rw [hl]; exact h2)
  have hrun' : ((partitionQuantiles (F := XR) ((D.map fun I => (I ((x : Int) + (y : Int) * (w : Int))).getD 0).mergeSort (· ≤ ·)) (g : Int)).bind fun Q =>
      (Q.mapM fun q => q[0]?.bind fun a => q[1]?.map fun b => (a, b)).map fun gs => newRegion (.gauss gs) 1) =
      some (newRegion (.gauss (G.map fun Q => (XR.fin (sampleMean Q), XR.fin (fittedSd Q)))) 1) := by
    obtain ⟨Q, hQ, h⟩ := Option.bind_eq_some_iff.1 hrun
    rw [hQ, Option.bind_some, h]
    rfl
  refine ⟨G.map fun Q => (XR.fin (sampleMean Q), XR.fin (fittedSd Q)), hrun', ?_, ?_⟩
  · intro h0
    have := congrArg List.length h0
    rw [List.length_map, hG.length] at this
    simp at this
    omega
  · intro p hp
    obtain ⟨Q, hQ, rfl⟩ := List.mem_map.1 hp
    exact ⟨_, _, (fitted_describes (X := Q) (hG.nonempty Q hQ) (fun x hx => hx)).2.2, rfl⟩

/-- `Structure` returns, for every data set without empty quantiles. -/
theorem poon_total {pick : Nat → Nat → Nat} (hpick : GoodPick pick) (ord : PState XR → PNode → List PNode) (D : List VarSet) (W H m g r : Nat)
    (hr : 2 ≤ r) (hm : 0 < m) (hW : 0 < W) (hH : 0 < H) (hg : 2 ≤ g) (h1 : g ≤ D.length) (h2 : D.length < 2 * g ∨ g * (g - 1) < 2 * D.length) :
    ∃ st, poonStructure pick (poonInfer (W * r) ord) D (W * r) (H * r) m g r = some (.sum ⟨0, 0, W * r, H * r⟩ 0, st) ∧ PoonOk (W * r) (H * r) r st := by
  obtain ⟨L, hL, hLp, hLs⟩ := createRegions_gen W H m g r D hr (fun gs => gs ≠ [] ∧ ∀ p ∈ gs, ProperPair p) (fun x y => createUnit_proper (W * r) x y g D hg h1 h2)
  have hsize : ∀ k, 0 < sizeOf' (W * r) (H * r) r m k := by
    intro k
    unfold sizeOf'
    split <;> omega
  have h0 : PoonOk (W * r) (H * r) r ⟨L, fun _ => none, fun _ => none, fun _ => false, 0⟩ := by
    refine ⟨createRegions_ok hL, fun n v h => (by cases h), fun _ _ => rfl, ?_, ?_, ?_, ?_⟩
    · intro k hk
      obtain ⟨gs, h1, h2, _⟩ := hLp k hk
      exact ⟨_, gs, h1, rfl, h2⟩
    · intro k R gs hR hgs
      have hk := (createRegions_ok hL k R hR).unit gs hgs
      obtain ⟨gs', h3, _, h4⟩ := hLp k ⟨k.x1, k.y1, by omega, by omega, by
        obtain ⟨x1, y1, x2, y2⟩ := k
        dsimp only at hk
        rw [Rect.mk.injEq]
        exact ⟨rfl, rfl, hk.1, hk.2.1⟩⟩
      dsimp only at hR
      rw [h3] at hR
      cases hR
      cases hgs
      exact h4
    · intro k hk
      refine ⟨_, _, hLs k hk, rfl, ?_, rfl, by simp⟩
      rw [List.length_replicate]
      exact hsize k
    · intro k R ss hR hss kids hkids c hc
      exfalso
      have hempty : ∀ (k : Rect) (R : PRegion XR) (ss : List (List (Decomp × XR))), L k = some R → R.inner = .sums ss → ∀ kids ∈ ss, kids = [] := by
        have := hL
        unfold createRegions at this
        rw [if_neg (by omega)] at this
        dsimp only at this
        refine foldlM_keeps (P := fun (L : Rect → Option (PRegion XR)) => ∀ (k : Rect) (R : PRegion XR) (ss : List (List (Decomp × XR))), L k = some R → R.inner = .sums ss → ∀ kids ∈ ss, kids = [])
          _ _ ?_ ?_ _ this
        · intro k _ L hL L' hL' k' R' ss' hR' hss'
          obtain ⟨R, hR, rfl⟩ := Option.map_eq_some_iff.1 hL'
          by_cases hkk : k' = k
          · subst hkk
            rw [Function.update_self] at hR'
            cases hR'
            unfold fineRegion at hR
            split at hR
            · obtain ⟨gs, h3, _⟩ := createUnit_proper (W * r) k'.x1 k'.y1 g D hg h1 h2
              rw [h3] at hR
              cases hR
              cases hss'
            · cases hR
              cases hss'
              intro kids hk
              exact List.eq_of_mem_replicate hk
          · rw [Function.update_of_ne hkk] at hR'
            exact hL k' R' ss' hR' hss'
        · generalize coarseRects (W * r) (H * r) r = l
          have hz : ∀ (k : Rect) (R : PRegion XR) (ss : List (List (Decomp × XR))), (fun _ => none : Rect → Option (PRegion XR)) k = some R → R.inner = .sums ss → ∀ kids ∈ ss, kids = [] := by
            intro k R ss h
            cases h
          revert hz
          generalize (fun _ => none : Rect → Option (PRegion XR)) = L0
          induction l generalizing L0 with
          | nil => exact id
          | cons x l ih =>
            intro hz
            rw [List.foldl_cons]
            refine ih _ ?_
            intro k' R' ss' hR' hss'
            by_cases hkk : k' = x.1
            · subst hkk
              rw [Function.update_self] at hR'
              cases hR'
              split at hss'
              · cases hss'
                intro kids hk
                exact List.mem_singleton.1 hk
              · cases hss'
                intro kids hk
                exact List.eq_of_mem_replicate hk
            · rw [Function.update_of_ne hkk] at hR'
              exact hz k' R' ss' hR' hss'
      rw [hempty k R ss hR hss kids hkids] at hc
      cases hc
  have hrun : ∀ (D' : List VarSet) (st : PState XR), PoonOk (W * r) (H * r) r st →
      ∃ st', D'.foldlM (mapInference pick (poonInfer (W * r) ord) (W * r) (H * r) r) st = some st' ∧ PoonOk (W * r) (H * r) r st' := by
    intro D'
    induction D' with
    | nil => intro st hst; exact ⟨st, rfl, hst⟩
    | cons I D' ih =>
      intro st hst
      obtain ⟨st1, h3, h4⟩ := mapInference_total hpick W H r hr ord I hst
      obtain ⟨st2, h5, h6⟩ := ih st1 h4
      refine ⟨st2, ?_, h6⟩
      rw [List.foldlM_cons, h3]
      exact h5
  obtain ⟨st, hst, hok⟩ := hrun D _ h0
  have hroot : (⟨0, 0, W * r, H * r⟩ : Rect) ∈ sumRects (W * r) (H * r) r := by
    have := grid_done (W := W) (H := H) (r := r) (by omega) (i := 0) (i' := W) (j := 0) (j' := H) hW le_rfl hH le_rfl
    rw [Nat.zero_mul] at this
    rcases this with ⟨x, y, _, _, h⟩ | h
    · rw [Rect.mk.injEq] at h
      have h5 := Nat.mul_le_mul_right r hW
      omega
    · exact h
  obtain ⟨R, ss, hR, hin, hpos, _⟩ := hok.sums _ hroot
  refine ⟨st, ?_, hok⟩
  unfold poonStructure
  rw [hL, Option.bind_some, hst, Option.bind_some, hR, Option.bind_some]
  unfold PRegion.node
  rw [hin]
  dsimp only
  rw [if_pos hpos, Option.map_some]

end Gospn
