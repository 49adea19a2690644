/-
Theorems about what structure learning takes from the data: C102, C103, C104.
-/
import Verif.Proofs.GensLeaves

set_option linter.unusedSectionVars false
set_option linter.unusedSimpArgs false

namespace Gospn
open GoFloat Spec
variable {ι : Type} [Fintype ι]

/-! ### Leaves -/

theorem reach_leaf {N : Net ι XR} {u n : ι} {l : Leaf XR} (hu : N.kind u = .leaf l) (h : Reach N.ch u n) : n = u := by
  rcases Relation.ReflTransGen.cases_head h with h | ⟨c, hc, _⟩
  · exact h.symm
  · rw [ch_of_leaf hu] at hc; simp at hc

theorem univariate_leaves {N : Net ι XR} {g : Int} {v : Variable} {D : List VarSet} {u : ι} {cats : Int → Int} (hcat : v.categories = cats v.varid) (hpos : 0 < cats v.varid)
    (h : IsUnivariate N g v D u) : ∀ n l, Reach N.ch u n → N.kind n = .leaf l → leafVar l = v.varid ∧ LeafFrom cats l (column v.varid D) := by
  intro n l hn hk
  unfold IsUnivariate at h
  split at h
  · obtain ⟨sc, k, m, hu⟩ := multinom_kind (hcat ▸ hpos) h
    rw [reach_leaf hu hn, hu] at hk
    cases hk
    refine ⟨rfl, ?_⟩
    simp only [LeafFrom, ← hcat]
  · rename_i hg
    obtain ⟨Q, cs, hQ, hlen, hu, hcs⟩ := h
    have hch : N.ch u = cs := by unfold Net.ch; rw [hu]
    rcases Relation.ReflTransGen.cases_head hn with rfl | ⟨c, hc, hcn⟩
    · rw [hu] at hk; cases hk
    · rw [hch] at hc
      obtain ⟨i, hi, hget⟩ := List.mem_iff_getElem.1 hc
      obtain ⟨mu, sigma, h0, h1, hck⟩ := hcs i (Q[i]'(by omega)) c (by simp) (by rw [List.getElem?_eq_getElem hi, hget])
      rw [reach_leaf hck hcn, hck] at hk
      cases hk
      refine ⟨rfl, ?_⟩
      obtain ⟨m, rfl⟩ := Int.eq_ofNat_of_zero_le (show 0 ≤ g by omega)
      obtain ⟨G, hG, _, hflat, _⟩ := C50_partition_partial (extractInstance v.varid D) m (by omega)
      have hQG := Option.some.inj (hQ.symm.trans hG)
      have hiG : i < G.length := by
        have := congrArg List.length hQG
        rw [List.length_map] at this; omega
      have hget' : Q[i]'(by omega) = if G[i] = [] then [.nan, .nan, .fin 0] else [.fin (sampleMean G[i]), .fin (if sampleSd G[i] = 0 then 1 / 2 else sampleSd G[i]), .fin G[i].length] := by
        have : Q[i]? = (G.map fun Q => if Q = [] then [.nan, .nan, .fin 0] else [.fin (sampleMean Q), .fin (if sampleSd Q = 0 then 1 / 2 else sampleSd Q), .fin Q.length])[i]? := by rw [hQG]
        rw [List.getElem?_map, List.getElem?_eq_getElem hiG, List.getElem?_eq_getElem (by omega)] at this
        simpa using this
      refine ⟨G[i], ?_, ?_⟩
      · have : G[i] ∈ G := List.getElem_mem hiG
        obtain ⟨a, b, hab⟩ := List.append_of_mem this
        refine ⟨a.flatten, b.flatten, ?_⟩
        have := congrArg List.flatten hab
        rw [hflat] at this
        refine Eq.trans ?_ this.symm
        simp
      · rw [hget'] at h0 h1
        by_cases he : G[i] = []
        · rw [if_pos he] at h0 h1
          simp at h0 h1
          exact Or.inl ⟨he, h0.symm, h1.symm⟩
        · rw [if_neg he] at h0 h1
          simp only [List.getElem?_cons_zero, List.getElem?_cons_succ, Option.some.injEq] at h0 h1
          exact Or.inr ⟨he, h0.symm, h1.symm⟩

/-- C102, C104, the leaves: each is estimated, with smoothed relative frequencies or with mean and standard deviation, from values that the variable has in the data, each used at
most as often as it occurs. -/
theorem C102_leaves {N : Net ι XR} {g k : Int} {eps : XR} {mp : Int} {Sc : VarScope} {D : List VarSet} {u : ι} (h : Learned N g k eps mp Sc D u) (cats : Int → Int) :
    ScopeOk cats Sc → SameVars D → ∀ n l, Reach N.ch u n → N.kind n = .leaf l →
      (Sc (leafVar l)).isSome ∧ ∃ col, col.Subperm (column (leafVar l) D) ∧ LeafFrom cats l col := by
  induction h with
  | @leaf Sc D u key v hord hv hun =>
    intro hok _ n l hn hk
    obtain ⟨h1, h2, h3⟩ := hok key v hv
    obtain ⟨e1, e2⟩ := univariate_leaves (cats := cats) (by rw [h1]; exact h2) (by rw [h1]; exact h3) hun n l hn hk
    rw [e1]
    exact ⟨by rw [h1, hv]; rfl, _, List.Subperm.refl _, e2⟩
  | @product Sc D u keys K scs cs ds hord hn hK hK1 hlen hsub _ hu hp ih =>
    intro hok _ n l hn hk
    have hch : N.ch u = ds := by unfold Net.ch; rw [hu]
    rcases Relation.ReflTransGen.cases_head hn with rfl | ⟨c, hc, hcn⟩
    · rw [hu] at hk; cases hk
    rw [hch] at hc
    obtain ⟨i, hi, hget⟩ := List.mem_iff_getElem.1 (hp.mem_iff.1 hc)
    have hi' : i < K.length := by omega
    obtain ⟨hd1, hd2⟩ := subScope_spec (hsub i K[i] (by simp))
    have hoki : ScopeOk cats (scs i) := by
      intro x v hx
      rw [hd2] at hx
      split at hx
      · obtain ⟨w, hw, rfl⟩ := Option.map_eq_some_iff.1 hx
        exact ⟨rfl, (hok x w hw).2⟩
      · cases hx
    obtain ⟨g1, col, g2, g3⟩ := ih i K[i] c (by simp) (by rw [List.getElem?_eq_getElem hi, hget]) hoki (sameVars_sub D _) n l hcn hk
    rw [hd2] at g1
    split at g1
    · rename_i hv
      rw [column_sub D hv] at g2
      exact ⟨hd1 _ hv, col, g2, g3⟩
    · cases g1
  | @factorized Sc D u keys K hord hn hK hK1 hc hf =>
    intro hok _ n l hn hk
    obtain ⟨ks, cs, ho, hlen, hu, hcs⟩ := hf
    have hch : N.ch u = cs := by unfold Net.ch; rw [hu]
    rcases Relation.ReflTransGen.cases_head hn with rfl | ⟨c, hc, hcn⟩
    · rw [hu] at hk; cases hk
    rw [hch] at hc
    obtain ⟨i, hi, hget⟩ := List.mem_iff_getElem.1 hc
    obtain ⟨v, hv, hun⟩ := hcs i (ks[i]'(by omega)) c (by simp) (by rw [List.getElem?_eq_getElem hi, hget])
    obtain ⟨h1, h2, h3⟩ := hok _ v hv
    obtain ⟨e1, e2⟩ := univariate_leaves (cats := cats) (by rw [h1]; exact h2) (by rw [h1]; exact h3) hun n l hcn hk
    rw [e1]
    exact ⟨by rw [h1, hv]; rfl, _, List.Subperm.refl _, e2⟩
  | @sum Sc D u keys K C orders cs ps hord hn hK hK1 hC hC1 hlen hords _ hp hu ih =>
    intro hok hs n l hn hk
    have hperm := clustered_perm hC hs
    have hch : N.ch u = ps.map Prod.fst := by unfold Net.ch; rw [hu]
    have hfst : (ps.map Prod.fst).Perm cs := by
      have := hp.map Prod.fst
      rwa [List.map_fst_zip (by simp [hlen])] at this
    rcases Relation.ReflTransGen.cases_head hn with rfl | ⟨c, hc, hcn⟩
    · rw [hu] at hk; cases hk
    rw [hch] at hc
    obtain ⟨i, hi, hget⟩ := List.mem_iff_getElem.1 (hfst.mem_iff.1 hc)
    have hiC : i < C.length := by omega
    have hmem : C[i] ∈ C := List.getElem_mem hiC
    have := ih i C[i] c (by simp) (by rw [List.getElem?_eq_getElem hi, hget])
    rw [reflectScope_eq (hords i)] at this
    obtain ⟨g1, col, g2, g3⟩ := this hok (sameVars_cluster hperm hs hmem) n l hcn hk
    refine ⟨g1, col, g2.trans ?_, g3⟩
    have e1 : (column (leafVar l) C.flatten).Perm (column (leafVar l) D) := hperm.map _
    refine List.Subperm.trans ?_ e1.subperm
    rw [column_flatten]
    exact (List.sublist_flatten_of_mem (List.mem_map_of_mem hmem)).subperm

/-! ### Marginals -/

theorem prod_single {α : Type} (f : α → ℝ) : ∀ (l : List α) (i : Nat) (a : α), l[i]? = some a → (∀ (j : Nat) b, l[j]? = some b → j ≠ i → f b = 1) → (l.map f).prod = f a := by
  intro l
  induction l with
  | nil => intro i a h; simp at h
  | cons b l ih =>
    intro i a h h1
    rw [List.map_cons, List.prod_cons]
    cases i with
    | zero =>
      simp at h
      subst h
      have : (l.map f).prod = 1 := by
        apply List.prod_eq_one
        intro x hx
        obtain ⟨y, hy, rfl⟩ := List.mem_map.1 hx
        obtain ⟨j, hj, hget⟩ := List.mem_iff_getElem.1 hy
        exact h1 (j + 1) y (by rw [List.getElem?_cons_succ, List.getElem?_eq_getElem hj, hget]) (by omega)
      rw [this, mul_one]
    | succ i =>
      rw [h1 0 b rfl (by omega), one_mul]
      exact ih i a (by simpa using h) fun j y hy hj => h1 (j + 1) y (by simpa using hy) (by omega)

/-- The evidence sets `v` to `x` and no other variable of the scope. -/
def OnlySets (Sc : VarScope) (I : VarSet) (v x : Int) : Prop := I v = some x ∧ ∀ w, (Sc w).isSome → w ≠ v → I w = none

theorem onlySets_domain {cats : Int → Int} {N : Net ι XR} {u : ι} {Sc : VarScope} (hsc : ∀ v, InScope N u v ↔ (Sc v).isSome) {I : VarSet} {v x : Int} (h : OnlySets Sc I v x) (h0 : 0 ≤ x) (h1 : x < cats v) :
    InDomain N u (fun v => ((Finset.Ico 0 (cats v) : Finset Int) : Set Int)) I := by
  intro w hw y hy
  by_cases hwv : w = v
  · subst hwv
    rw [h.1] at hy
    cases hy
    simp [h0, h1]
  · rw [h.2 w ((hsc w).1 hw) hwv] at hy; cases hy

theorem gather {α β : Type} (val : β → α → ℝ) (w : β → List Int → ℝ) (col : α → List Int) (ok : β → Prop) :
    ∀ (L : List α), (∀ p ∈ L, ∃ G : List (List Int), G.flatten.Perm (col p) ∧ ∀ e, ok e → val e p = (G.map (w e)).sum) →
      ∃ G : List (List Int), G.flatten.Perm (L.map col).flatten ∧ ∀ e, ok e → (L.map (val e)).sum = (G.map (w e)).sum := by
  intro L
  induction L with
  | nil => intro _; exact ⟨[], by simp⟩
  | cons p L ih =>
    intro h
    obtain ⟨G1, a1, a2⟩ := h p (by simp)
    obtain ⟨G2, b1, b2⟩ := ih fun q hq => h q (by simp [hq])
    refine ⟨G1 ++ G2, ?_, fun e he => ?_⟩
    · rw [List.flatten_append, List.map_cons, List.flatten_cons]
      exact a1.append b1
    · rw [List.map_cons, List.sum_cons, List.map_append, List.sum_append, a2 e he, b2 e he]

theorem learned_marginal {N : Net ι XR} (hac : Acyclic N.ch) {g k : Int} (hg : g ≤ 0) {eps : XR} {mp : Int} {Sc : VarScope} {D : List VarSet} {u : ι} (h : Learned N g k eps mp Sc D u)
    (cats : Int → Int) : ScopeOk cats Sc → SameVars D → D ≠ [] → ∀ v, (Sc v).isSome →
      ∃ G : List (List Int), G.flatten.Perm (column v D) ∧ ∀ (e : VarSet × Int), (OnlySets Sc e.1 v e.2 ∧ 0 ≤ e.2 ∧ e.2 < cats v) →
        N.prob e.1 u = (G.map fun g => (g.length : ℝ) / D.length * smoothFreq (cats v) g e.2).sum := by
  have hwhole : ∀ {D : List VarSet} {v : Variable} {c : ι}, D ≠ [] → v.categories = cats v.varid → 0 < cats v.varid → IsUnivariate N g v D c → ∀ (e : VarSet × Int), e.1 v.varid = some e.2 → 0 ≤ e.2 → e.2 < cats v.varid →
      N.prob e.1 c = ([column v.varid D].map fun g => (g.length : ℝ) / D.length * smoothFreq (cats v.varid) g e.2).sum := by
    intro D v c hne hcat hpos hun e he h0 h1
    unfold IsUnivariate at hun
    rw [if_pos hg] at hun
    rw [(multinom_prob hac (hcat ▸ hpos) hun e.1).1 e.2 he h0 (hcat ▸ h1), hcat]
    have : (D.length : ℝ) ≠ 0 := by
      have : D.length ≠ 0 := by simpa using hne
      exact_mod_cast this
    rw [List.map_cons, List.map_nil, List.sum_cons, List.sum_nil, column_length, div_self this]
    ring
  induction h with
  | @leaf Sc D u key v hord hv hun =>
    intro hok _ hne w hw
    obtain ⟨h1, h2, h3⟩ := hok key v hv
    have hwk : w = v.varid := by rw [h1]; simpa using (hord.2 w).2 hw
    subst hwk
    refine ⟨[column v.varid D], by simp, fun e he => ?_⟩
    exact hwhole hne (by rw [h1]; exact h2) (by rw [h1]; exact h3) hun e he.1.1 he.2.1 he.2.2
  | @product Sc D u keys K scs cs ds hord hn hK hK1 hlen hsub hch hu hp ih =>
    intro hok hs hne v hv
    have hL : Learned N g k eps mp Sc D u := .product keys K scs cs ds hord hn hK hK1 hlen hsub hch hu hp
    obtain ⟨c1, c2, c3, c4, c5⟩ := C37_learn hL cats hok
    obtain ⟨keys', ho', hperm, _⟩ := indepSets_spec hok hK
    have hvK : v ∈ K.flatten := hperm.mem_iff.2 ((ho'.2 v).2 hv)
    obtain ⟨s, hsK, hvs⟩ := List.mem_flatten.1 hvK
    obtain ⟨i, hi, hget⟩ := List.mem_iff_getElem.1 hsK
    subst hget
    have hoki : ∀ j (hj : j < K.length), ScopeOk cats (scs j) ∧ ∀ w, (scs j w).isSome ↔ w ∈ K[j] := by
      intro j hj
      obtain ⟨hd1, hd2⟩ := subScope_spec (hsub j K[j] (by simp))
      refine ⟨?_, fun w => ?_⟩
      · intro x v hx
        rw [hd2] at hx
        split at hx
        · obtain ⟨w, hw, rfl⟩ := Option.map_eq_some_iff.1 hx
          exact ⟨rfl, (hok x w hw).2⟩
        · cases hx
      · rw [hd2]
        split
        · rename_i hw
          simp [hw, hd1 w hw]
        · rename_i hw
          simp [hw]
    have hci : i < cs.length := by omega
    obtain ⟨G, hG1, hG2⟩ := ih i K[i] cs[i] (by simp) (by simp) (hoki i hi).1 (sameVars_sub D _) (by
      intro h0
      have := congrArg List.length h0
      rw [length_sub] at this
      simp at this
      exact hne this) v (((hoki i hi).2 v).2 hvs)
    rw [column_sub D hvs] at hG1
    refine ⟨G, hG1, fun e he => ?_⟩
    have hP := Net.prob_spec hac c4.nonneg (discrete_eval (c5 hg) (onlySets_domain c1 he.1 he.2.1 he.2.2)) Relation.ReflTransGen.refl
    rw [hP.2.1 ds hu, (hp.map (N.prob e.1)).prod_eq, prod_single (N.prob e.1) cs i cs[i] (by simp)]
    · rw [length_sub] at hG2
      refine hG2 e ⟨⟨he.1.1, fun w hw hwv => ?_⟩, he.2⟩
      refine he.1.2 w ?_ hwv
      have := ((hoki i hi).2 w).1 hw
      exact (ho'.2 w).1 (hperm.mem_iff.1 (List.mem_flatten.2 ⟨_, List.getElem_mem hi, this⟩))
    · intro j c hj hji
      have hjlt : j < cs.length := (List.getElem?_eq_some_iff.1 hj).1
      have hjK : j < K.length := by omega
      obtain ⟨d1, d2, d3, d4, d5⟩ := C37_learn (hch j K[j] c (by simp) hj) cats (hoki j hjK).1
      refine Net.prob_empty hac d4 (d5 hg) ?_ c Relation.ReflTransGen.refl
      intro w hw
      have hwj : w ∈ K[j] := ((hoki j hjK).2 w).1 ((d1 w).1 hw)
      refine he.1.2 w ((ho'.2 w).1 (hperm.mem_iff.1 (List.mem_flatten.2 ⟨_, List.getElem_mem hjK, hwj⟩))) ?_
      rintro rfl
      have hpw := (List.nodup_flatten.1 (hperm.nodup_iff.2 ho'.1)).2
      rw [List.pairwise_iff_getElem] at hpw
      rcases Nat.lt_or_gt_of_ne hji with hlt | hlt
      · exact hpw j i hjK hi hlt hwj hvs
      · exact hpw i j hi hjK hlt hvs hwj
  | @factorized Sc D u keys K hord hn hK hK1 hc hf =>
    intro hok hs hne v hv
    have hL : Learned N g k eps mp Sc D u := .factorized keys K hord hn hK hK1 hc hf
    obtain ⟨c1, c2, c3, c4, c5⟩ := C37_learn hL cats hok
    obtain ⟨ks, cs, ho, hlen, hu, hcs⟩ := hf
    obtain ⟨i, hi, hget⟩ := List.mem_iff_getElem.1 ((ho.2 v).2 hv)
    have hci : i < cs.length := by omega
    obtain ⟨x, hx, hun⟩ := hcs i v cs[i] (by rw [List.getElem?_eq_getElem hi, hget]) (by simp)
    obtain ⟨h1, h2, h3⟩ := hok v x hx
    refine ⟨[column v D], by simp, fun e he => ?_⟩
    have hP := Net.prob_spec hac c4.nonneg (discrete_eval (c5 hg) (onlySets_domain c1 he.1 he.2.1 he.2.2)) Relation.ReflTransGen.refl
    rw [hP.2.1 cs hu, prod_single (N.prob e.1) cs i cs[i] (by simp)]
    · have := hwhole hne (by rw [h1]; exact h2) (by rw [h1]; exact h3) hun e (by rw [h1]; exact he.1.1) he.2.1 (by rw [h1]; exact he.2.2)
      rwa [h1] at this
    · intro j c hj hji
      have hjlt : j < cs.length := (List.getElem?_eq_some_iff.1 hj).1
      have hjk : j < ks.length := by omega
      obtain ⟨y, hy, hun'⟩ := hcs j ks[j] c (by simp) hj
      obtain ⟨e1, e2, e3⟩ := hok _ y hy
      unfold IsUnivariate at hun'
      rw [if_pos hg] at hun'
      refine (multinom_prob hac (by rw [e2]; exact e3) hun' e.1).2 ?_
      rw [e1]
      refine he.1.2 _ (by rw [hy]; rfl) ?_
      intro hEq
      exact hji ((List.Nodup.getElem_inj_iff ho.1).1 (hEq.trans hget.symm))
  | @sum Sc D u keys K C orders cs ps hord hn hK hK1 hC hC1 hlen hords hch hp hu ih =>
    intro hok hs hne v hv
    have hL : Learned N g k eps mp Sc D u := .sum keys K C orders cs ps hord hn hK hK1 hC hC1 hlen hords hch hp hu
    obtain ⟨c1, c2, c3, c4, c5⟩ := C37_learn hL cats hok
    have hperm := clustered_perm hC hs
    obtain ⟨hD, _⟩ := clustered_lengths hC
    have hDr : (D.length : ℝ) ≠ 0 := by
      have : D.length ≠ 0 := by omega
      exact_mod_cast this
    obtain ⟨G, hG1, hG2⟩ := gather (fun (e : VarSet × Int) (p : ι × List VarSet) => (p.2.length : ℝ) / D.length * N.prob e.1 p.1)
      (fun e g => (g.length : ℝ) / D.length * smoothFreq (cats v) g e.2) (fun p => column v p.2) (fun e => OnlySets Sc e.1 v e.2 ∧ 0 ≤ e.2 ∧ e.2 < cats v) (cs.zip C) (by
        rintro ⟨c, d⟩ hcd
        obtain ⟨i, hi, hget⟩ := List.mem_iff_getElem.1 hcd
        rw [List.length_zip] at hi
        rw [List.getElem_zip, Prod.mk.injEq] at hget
        obtain ⟨rfl, rfl⟩ := hget
        by_cases hd : C[i] = []
        · refine ⟨[], by simp [hd, column], fun e _ => ?_⟩
          simp [hd]
        · have := ih i C[i] cs[i] (by simp) (by simp)
          rw [reflectScope_eq (hords i)] at this
          obtain ⟨G, e1, e2⟩ := this hok (sameVars_cluster hperm hs (List.getElem_mem _)) hd v hv
          refine ⟨G, e1, fun e he => ?_⟩
          dsimp only
          rw [e2 e he, ← List.sum_map_mul_left]
          congr 1
          apply List.map_congr_left
          intro x _
          have hdr : (C[i].length : ℝ) ≠ 0 := by
            have : C[i].length ≠ 0 := by simpa using hd
            exact_mod_cast this
          field_simp)
    refine ⟨G, hG1.trans ?_, fun e he => ?_⟩
    · have : (cs.zip C).map (fun p => column v p.2) = C.map (column v) := by
        have h2 : (cs.zip C).map Prod.snd = C := List.map_snd_zip (by omega)
        conv_rhs => rw [← h2]
        rw [List.map_map]; rfl
      rw [this, ← column_flatten]
      exact hperm.map _
    · rw [← hG2 e he]
      refine cluster_prob hD hlen hp fun r hr => ?_
      have hP := Net.prob_spec hac c4.nonneg (discrete_eval (c5 hg) (onlySets_domain c1 he.1 he.2.1 he.2.2)) Relation.ReflTransGen.refl
      exact hP.2.2 _ r (by rw [hu, hr])

theorem smooth_close {c : Int} (hc : 0 < c) (g : List Int) (x : Int) (n : ℝ) (hn : 0 < n) : |(g.length : ℝ) / n * smoothFreq c g x - (g.count x : ℝ) / n| ≤ c / n := by
  unfold smoothFreq
  have hc' : (1 : ℝ) ≤ c := by exact_mod_cast hc
  have hk : (g.count x : ℝ) ≤ g.length := by exact_mod_cast List.count_le_length
  have hk0 : (0 : ℝ) ≤ g.count x := by positivity
  have hg0 : (0 : ℝ) ≤ g.length := by positivity
  generalize (g.count x : ℝ) = k at *
  generalize (g.length : ℝ) = m at *
  generalize (c : ℝ) = c at *
  have hs : 0 < m + c := by linarith
  have e : m / n * ((k + 1) / (m + c)) - k / n = (m - k * c) / (m + c) / n := by
    field_simp
    ring
  rw [e, abs_div, abs_of_pos hn]
  apply div_le_div_of_nonneg_right _ hn.le
  rw [abs_div, abs_of_pos hs, div_le_iff₀ hs, abs_le]
  have h1 : k * c ≤ m * c := mul_le_mul_of_nonneg_right hk (by linarith)
  have h2 : 0 ≤ k * c := mul_nonneg hk0 (by linarith)
  have h3 : m * 1 ≤ m * c := mul_le_mul_of_nonneg_left hc' hg0
  constructor <;> nlinarith

/-- C102, part: the marginal of every variable in a network that `Learn` returns. There is a way to divide the values that the variable has in the data into groups such that the
probability of every category is the mean of the smoothed relative frequencies in the groups, weighted by their sizes. So it differs from the relative frequency in the data by at most
the number of categories times the number of groups divided by the number of instances. Missing: equality, see `C102_refuted`. -/
theorem C102_marginal_partial {N : Net ι XR} (hac : Acyclic N.ch) {g k : Int} (hg : g ≤ 0) {eps : XR} {mp : Int} {Sc : VarScope} {D : List VarSet} {u : ι} (h : Learned N g k eps mp Sc D u)
    (cats : Int → Int) (hok : ScopeOk cats Sc) (hs : SameVars D) (hne : D ≠ []) (v : Int) (hv : (Sc v).isSome) :
    ∃ G : List (List Int), G.flatten.Perm (column v D) ∧ ∀ x, 0 ≤ x → x < cats v → ∃ y, N.value (VarSet.single v x) u = some y ∧ IsLogProb y ∧
      unlog y = (G.map fun g => (g.length : ℝ) / D.length * smoothFreq (cats v) g x).sum ∧ |unlog y - freq (column v D) x| ≤ cats v * G.length / D.length := by
  obtain ⟨G, h1, h2⟩ := learned_marginal hac hg h cats hok hs hne v hv
  obtain ⟨c1, c2, c3, c4, c5⟩ := C37_learn h cats hok
  refine ⟨G, h1, fun x h0 hx => ?_⟩
  have hset : OnlySets Sc (VarSet.single v x) v x := ⟨by simp [VarSet.single], fun w _ hw => by simp [VarSet.single, hw]⟩
  obtain ⟨⟨y, e1, e2, e3⟩, _⟩ := Net.prob_spec hac c4.nonneg (discrete_eval (c5 hg) (onlySets_domain c1 hset h0 hx)) Relation.ReflTransGen.refl
  have e4 := h2 (VarSet.single v x, x) ⟨hset, h0, hx⟩
  refine ⟨y, e1, e2, e3.trans e4, ?_⟩
  rw [e3, e4]
  dsimp only
  have hpos : 0 < cats v := by
    obtain ⟨w, hw⟩ := Option.isSome_iff_exists.1 hv
    exact (hok v w hw).2.2
  have hn : (0 : ℝ) < D.length := by
    have : D.length ≠ 0 := by simpa using hne
    exact_mod_cast Nat.pos_of_ne_zero this
  have hfreq : freq (column v D) x = (G.map fun g => (g.count x : ℝ) / D.length).sum := by
    unfold freq
    rw [column_length, ← h1.count_eq, List.count_flatten]
    clear h1 h2 e4
    induction G with
    | nil => simp
    | cons g G ih => simp only [List.map_cons, List.sum_cons]; rw [← ih]; push_cast; ring
  rw [hfreq]
  clear h1 h2 e4 hfreq
  induction G with
  | nil => simp
  | cons g G ih =>
    simp only [List.map_cons, List.sum_cons, List.length_cons]
    have := smooth_close hpos g x D.length hn
    have e : (cats v : ℝ) * ((G.length + 1 : ℕ) : ℝ) / D.length = cats v / D.length + cats v * G.length / D.length := by push_cast; ring
    rw [e]
    refine le_trans ?_ (add_le_add this ih)
    refine le_trans (le_of_eq ?_) (abs_add_le _ _)
    congr 1
    ring

/-! ### No instance is impossible -/

theorem prod_le_of {α : Type} (f g : α → ℝ) : ∀ (l : List α), (∀ a ∈ l, 0 ≤ f a ∧ f a ≤ g a) → 0 ≤ (l.map f).prod ∧ (l.map f).prod ≤ (l.map g).prod := by
  intro l
  induction l with
  | nil => intro _; simp
  | cons a l ih =>
    intro h
    obtain ⟨h1, h2⟩ := ih fun b hb => h b (by simp [hb])
    obtain ⟨h3, h4⟩ := h a (by simp)
    simp only [List.map_cons, List.prod_cons]
    exact ⟨mul_nonneg h3 h1, mul_le_mul h4 h2 h1 (h3.trans h4)⟩

/-- What every variable with a value contributes to the bound. -/
noncomputable def leastFactor (cats : Int → Int) (n : Nat) (I : VarSet) (v : Int) : ℝ := if (I v).isSome then 1 / ((n : ℝ) + cats v) else 1

theorem leastFactor_nonneg {cats : Int → Int} {n : Nat} {I : VarSet} {v : Int} (h : 0 < cats v) : 0 ≤ leastFactor cats n I v := by
  unfold leastFactor
  have : (0 : ℝ) < cats v := by exact_mod_cast h
  split <;> positivity

theorem leastFactor_anti {cats : Int → Int} {n m : Nat} (hnm : n ≤ m) {I : VarSet} {v : Int} (h : 0 < cats v) : leastFactor cats m I v ≤ leastFactor cats n I v := by
  unfold leastFactor
  have h0 : (0 : ℝ) < cats v := by exact_mod_cast h
  have h1 : (n : ℝ) ≤ m := by exact_mod_cast hnm
  split
  · apply one_div_le_one_div_of_le
    · positivity
    · linarith
  · exact le_refl _

theorem univariate_least {N : Net ι XR} (hac : Acyclic N.ch) {g : Int} (hg : g ≤ 0) {v : Variable} {D : List VarSet} {u : ι} {cats : Int → Int} (hcat : v.categories = cats v.varid) (hpos : 0 < cats v.varid)
    (h : IsUnivariate N g v D u) {I : VarSet} (hI : ∀ x, I v.varid = some x → 0 ≤ x ∧ x < cats v.varid) : leastFactor cats D.length I v.varid ≤ N.prob I u := by
  unfold IsUnivariate at h
  rw [if_pos hg] at h
  obtain ⟨h1, h2⟩ := multinom_prob hac (hcat ▸ hpos) h I
  unfold leastFactor
  cases hx : I v.varid with
  | none => rw [h2 hx]; simp
  | some x =>
    obtain ⟨a, b⟩ := hI x hx
    rw [h1 x hx a (hcat ▸ b)]
    unfold smoothFreq
    rw [column_length, hcat]
    have h0 : (0 : ℝ) < cats v.varid := by exact_mod_cast hpos
    simp only [Option.isSome_some, if_true]
    apply div_le_div_of_nonneg_right
    · have : (0 : ℝ) ≤ (column v.varid D).count x := by positivity
      linarith
    · positivity

theorem learned_least {N : Net ι XR} (hac : Acyclic N.ch) {g k : Int} (hg : g ≤ 0) {eps : XR} {mp : Int} {Sc : VarScope} {D : List VarSet} {u : ι} (h : Learned N g k eps mp Sc D u)
    (cats : Int → Int) : ScopeOk cats Sc → ∀ ks, Sc.Order ks → ∀ I : VarSet, (∀ v x, (Sc v).isSome → I v = some x → 0 ≤ x ∧ x < cats v) →
      (ks.map (leastFactor cats D.length I)).prod ≤ N.prob I u := by
  have hdom : ∀ {Sc : VarScope} {u : ι} {I : VarSet}, (∀ v, InScope N u v ↔ (Sc v).isSome) → (∀ v x, (Sc v).isSome → I v = some x → 0 ≤ x ∧ x < cats v) →
      InDomain N u (fun v => ((Finset.Ico 0 (cats v) : Finset Int) : Set Int)) I := by
    intro Sc u I h1 h2 v hv x hx
    have := h2 v x ((h1 v).1 hv) hx
    simp [this.1, this.2]
  have hpos : ∀ {Sc : VarScope}, ScopeOk cats Sc → ∀ v, (Sc v).isSome → 0 < cats v := by
    intro Sc hok v hv
    obtain ⟨w, hw⟩ := Option.isSome_iff_exists.1 hv
    exact (hok v w hw).2.2
  induction h with
  | @leaf Sc D u key v hord hv hun =>
    intro hok ks hks I hI
    obtain ⟨h1, h2, h3⟩ := hok key v hv
    have hp : ks.Perm [key] := (List.perm_ext_iff_of_nodup hks.1 hord.1).2 fun a => by rw [hks.2, hord.2]
    rw [(hp.map _).prod_eq]
    simp only [List.map_cons, List.map_nil, List.prod_cons, List.prod_nil, mul_one]
    have := univariate_least hac hg (cats := cats) (by rw [h1]; exact h2) (by rw [h1]; exact h3) hun (I := I) (by
      intro x hx
      rw [h1] at hx ⊢
      exact hI key x (by rw [hv]; rfl) hx)
    rwa [h1] at this
  | @product Sc D u keys K scs cs ds hord hn hK hK1 hlen hsub hch hu hp ih =>
    intro hok ks hks I hI
    have hL : Learned N g k eps mp Sc D u := .product keys K scs cs ds hord hn hK hK1 hlen hsub hch hu hp
    obtain ⟨c1, c2, c3, c4, c5⟩ := C37_learn hL cats hok
    obtain ⟨keys', ho', hperm, _⟩ := indepSets_spec hok hK
    have hP := Net.prob_spec hac c4.nonneg (discrete_eval (c5 hg) (hdom c1 hI)) Relation.ReflTransGen.refl
    have hpk : ks.Perm K.flatten := ((List.perm_ext_iff_of_nodup hks.1 ho'.1).2 fun a => by rw [hks.2, ho'.2]).trans hperm.symm
    rw [hP.2.1 ds hu, (hp.map (N.prob I)).prod_eq, (hpk.map _).prod_eq]
    have hzip : (cs.zip K).map Prod.fst = cs := List.map_fst_zip (by omega)
    have hzip2 : (cs.zip K).map Prod.snd = K := List.map_snd_zip (by omega)
    have e1 : (cs.map (N.prob I)).prod = ((cs.zip K).map fun p => N.prob I p.1).prod := by
      conv_lhs => rw [← hzip]
      rw [List.map_map]; rfl
    have e2 : (K.flatten.map (leastFactor cats D.length I)).prod = ((cs.zip K).map fun p => (p.2.map (leastFactor cats D.length I)).prod).prod := by
      conv_lhs => rw [← hzip2]
      rw [List.map_flatten, List.prod_flatten, List.map_map, List.map_map]; rfl
    rw [e1, e2]
    refine (prod_le_of _ _ _ ?_).2
    rintro ⟨c, s⟩ hcs
    obtain ⟨i, hi, hget⟩ := List.mem_iff_getElem.1 hcs
    rw [List.length_zip] at hi
    rw [List.getElem_zip, Prod.mk.injEq] at hget
    obtain ⟨rfl, rfl⟩ := hget
    have hiK : i < K.length := by omega
    have hin : ∀ w ∈ K[i], (Sc w).isSome := fun w hw => (ho'.2 w).1 (hperm.mem_iff.1 (List.mem_flatten.2 ⟨_, List.getElem_mem hiK, hw⟩))
    refine ⟨?_, ?_⟩
    · apply List.prod_nonneg
      intro a ha
      obtain ⟨w, hw, rfl⟩ := List.mem_map.1 ha
      exact leastFactor_nonneg (hpos hok w (hin w hw))
    · obtain ⟨hd1, hd2⟩ := subScope_spec (hsub i K[i] (by simp))
      have hmem : ∀ w, (scs i w).isSome ↔ w ∈ K[i] := by
        intro w
        rw [hd2]
        split
        · rename_i hw
          simp [hw, hd1 w hw]
        · rename_i hw
          simp [hw]
      have := ih i K[i] cs[i] (by simp) (by simp) (by
        intro x v hx
        rw [hd2] at hx
        split at hx
        · obtain ⟨w, hw, rfl⟩ := Option.map_eq_some_iff.1 hx
          exact ⟨rfl, (hok x w hw).2⟩
        · cases hx) K[i] ⟨(List.nodup_flatten.1 (hperm.nodup_iff.2 ho'.1)).1 _ (List.getElem_mem hiK), fun w => (hmem w).symm⟩ I
        (fun v x hv hx => hI v x (hin v ((hmem v).1 hv)) hx)
      rwa [length_sub] at this
  | @factorized Sc D u keys K hord hn hK hK1 hc hf =>
    intro hok ks' hks' I hI
    have hL : Learned N g k eps mp Sc D u := .factorized keys K hord hn hK hK1 hc hf
    obtain ⟨c1, c2, c3, c4, c5⟩ := C37_learn hL cats hok
    obtain ⟨ks, cs, ho, hlen, hu, hcs⟩ := hf
    have hP := Net.prob_spec hac c4.nonneg (discrete_eval (c5 hg) (hdom c1 hI)) Relation.ReflTransGen.refl
    have hpk : ks'.Perm ks := (List.perm_ext_iff_of_nodup hks'.1 ho.1).2 fun a => by rw [hks'.2, ho.2]
    rw [hP.2.1 cs hu, (hpk.map _).prod_eq]
    have hzip : (cs.zip ks).map Prod.fst = cs := List.map_fst_zip (by omega)
    have hzip2 : (cs.zip ks).map Prod.snd = ks := List.map_snd_zip (by omega)
    have e1 : (cs.map (N.prob I)).prod = ((cs.zip ks).map fun p => N.prob I p.1).prod := by
      conv_lhs => rw [← hzip]
      rw [List.map_map]; rfl
    have e2 : (ks.map (leastFactor cats D.length I)).prod = ((cs.zip ks).map fun p => leastFactor cats D.length I p.2).prod := by
      conv_lhs => rw [← hzip2]
      rw [List.map_map]; rfl
    rw [e1, e2]
    refine (prod_le_of _ _ _ ?_).2
    rintro ⟨c, s⟩ hcs'
    obtain ⟨i, hi, hget⟩ := List.mem_iff_getElem.1 hcs'
    rw [List.length_zip] at hi
    rw [List.getElem_zip, Prod.mk.injEq] at hget
    obtain ⟨rfl, rfl⟩ := hget
    obtain ⟨y, hy, hun⟩ := hcs i ks[i] cs[i] (by simp) (by simp)
    obtain ⟨h1, h2, h3⟩ := hok _ y hy
    refine ⟨leastFactor_nonneg h3, ?_⟩
    have := univariate_least hac hg (cats := cats) (by rw [h1]; exact h2) (by rw [h1]; exact h3) hun (I := I) (by
      intro x hx
      rw [h1] at hx ⊢
      exact hI _ x (by rw [hy]; rfl) hx)
    rwa [h1] at this
  | @sum Sc D u keys K C orders cs ps hord hn hK hK1 hC hC1 hlen hords hch hp hu ih =>
    intro hok ks hks I hI
    have hL : Learned N g k eps mp Sc D u := .sum keys K C orders cs ps hord hn hK hK1 hC hC1 hlen hords hch hp hu
    obtain ⟨c1, c2, c3, c4, c5⟩ := C37_learn hL cats hok
    obtain ⟨hD, hlens⟩ := clustered_lengths hC
    have hDr : (0 : ℝ) < D.length := by exact_mod_cast hD
    rw [cluster_prob (I := I) hD hlen hp fun r hr => by
      have hP := Net.prob_spec hac c4.nonneg (discrete_eval (c5 hg) (hdom c1 hI)) Relation.ReflTransGen.refl
      exact hP.2.2 _ r (by rw [hu, hr])]
    have hle : ∀ p ∈ cs.zip C, (ks.map (leastFactor cats D.length I)).prod ≤ N.prob I p.1 := by
      rintro ⟨c, d⟩ hcd
      obtain ⟨i, hi, hget⟩ := List.mem_iff_getElem.1 hcd
      rw [List.length_zip] at hi
      rw [List.getElem_zip, Prod.mk.injEq] at hget
      obtain ⟨rfl, rfl⟩ := hget
      have hiC : i < C.length := by omega
      have := ih i C[i] cs[i] (by simp) (by simp)
      rw [reflectScope_eq (hords i)] at this
      refine le_trans ?_ (this hok ks hks I hI)
      refine (prod_le_of _ _ _ ?_).2
      intro w hw
      have hw' := hpos hok w ((hks.2 w).1 hw)
      refine ⟨leastFactor_nonneg hw', leastFactor_anti ?_ hw'⟩
      rw [← hlens]
      exact List.single_le_sum (fun _ _ => Nat.zero_le _) _ (List.mem_map_of_mem (List.getElem_mem hiC))
    have e : (((cs.zip C).map fun p => (p.2.length : ℝ) / D.length).sum) = 1 := by
      have hz : (cs.zip C).map (fun p => (p.2.length : ℝ) / D.length) = C.map fun d => (d.length : ℝ) / D.length := by
        have h2 : (cs.zip C).map Prod.snd = C := List.map_snd_zip (by omega)
        conv_rhs => rw [← h2]
        rw [List.map_map]; rfl
      have : ∀ l : List (List VarSet), (l.map fun d => (d.length : ℝ) / D.length).sum = ((l.map List.length).sum : ℕ) / (D.length : ℝ) := by
        intro l
        induction l with
        | nil => simp
        | cons d l ih => rw [List.map_cons, List.sum_cons, ih, List.map_cons, List.sum_cons]; push_cast; ring
      rw [hz, this, hlens]
      exact div_self hDr.ne'
    generalize (ks.map (leastFactor cats D.length I)).prod = b at hle ⊢
    have gen : ∀ L : List (ι × List VarSet), (∀ p ∈ L, b ≤ N.prob I p.1) → b * (L.map fun p => (p.2.length : ℝ) / D.length).sum ≤ (L.map fun p => (p.2.length : ℝ) / D.length * N.prob I p.1).sum := by
      intro L
      induction L with
      | nil => intro _; simp
      | cons p L ih =>
        intro h
        simp only [List.map_cons, List.sum_cons]
        have h1 := ih fun q hq => h q (by simp [hq])
        have h2 : (p.2.length : ℝ) / D.length * b ≤ (p.2.length : ℝ) / D.length * N.prob I p.1 := mul_le_mul_of_nonneg_left (h p (by simp)) (by positivity)
        rw [mul_add]
        linarith
    have := gen _ hle
    rwa [e, mul_one] at this

/-- C103: a network that `Learn` returns gives every instance, complete or not, that has values of the categories a probability of at least the product, over the variables with a
value, of one divided by the number of instances plus the number of categories. So no such instance has the value minus infinity. -/
theorem C103_positive {N : Net ι XR} (hac : Acyclic N.ch) {g k : Int} (hg : g ≤ 0) {eps : XR} {mp : Int} {Sc : VarScope} {D : List VarSet} {u : ι} (h : Learned N g k eps mp Sc D u)
    (cats : Int → Int) (hok : ScopeOk cats Sc) (I : VarSet) (hI : ∀ v x, (Sc v).isSome → I v = some x → 0 ≤ x ∧ x < cats v) (ks : List Int) (hks : ks.Nodup)
    (hmem : ∀ v, v ∈ ks ↔ (Sc v).isSome ∧ (I v).isSome) :
    ∃ y : ℝ, N.value I u = some (.fin y) ∧ (ks.map fun v => 1 / ((D.length : ℝ) + cats v)).prod ≤ Real.exp y := by
  obtain ⟨c1, c2, c3, c4, c5⟩ := C37_learn h cats hok
  have hdom : InDomain N u (fun v => ((Finset.Ico 0 (cats v) : Finset Int) : Set Int)) I := by
    intro v hv x hx
    have := hI v x ((c1 v).1 hv) hx
    simp [this.1, this.2]
  obtain ⟨⟨y, e1, e2, e3⟩, _⟩ := Net.prob_spec hac c4.nonneg (discrete_eval (c5 hg) hdom) Relation.ReflTransGen.refl
  have hposv : ∀ v, (Sc v).isSome → 0 < cats v := by
    intro v hv
    obtain ⟨w, hw⟩ := Option.isSome_iff_exists.1 hv
    exact (hok v w hw).2.2
  obtain ⟨keys, hord⟩ : ∃ keys, Sc.Order keys := by
    cases h with
    | leaf key v ho _ _ => exact ⟨_, ho⟩
    | product keys _ _ _ _ ho => exact ⟨_, ho⟩
    | factorized keys _ ho => exact ⟨_, ho⟩
    | sum keys _ _ _ _ _ ho => exact ⟨_, ho⟩
  have hb := learned_least hac hg h cats hok keys hord I hI
  have hperm : ks.Perm (keys.filter fun v => (I v).isSome) := (List.perm_ext_iff_of_nodup hks (hord.1.filter _)).2 fun a => by
    rw [hmem, List.mem_filter, hord.2]
  have heq : (keys.map (leastFactor cats D.length I)).prod = (ks.map fun v => 1 / ((D.length : ℝ) + cats v)).prod := by
    rw [(hperm.map _).prod_eq]
    clear hb hperm hord
    induction keys with
    | nil => simp
    | cons a keys ih =>
      rw [List.map_cons, List.prod_cons, ih, List.filter_cons]
      unfold leastFactor
      split <;> simp
  rw [heq, ← e3] at hb
  have hp : 0 < (ks.map fun v => 1 / ((D.length : ℝ) + cats v)).prod := by
    apply List.prod_pos
    intro a ha
    obtain ⟨v, hv, rfl⟩ := List.mem_map.1 ha
    have : (0 : ℝ) < cats v := by exact_mod_cast hposv v ((hmem v).1 hv).1
    positivity
  cases y with
  | fin r => exact ⟨r, e1, hb⟩
  | ninf => simp only [unlog] at hb; linarith
  | nan => exact absurd e2 id
  | pinf => exact absurd e2 id

/-! ### Refutations and examples -/

namespace GensExample

/-- One variable with two categories. -/
def single : VarScope := fun k => if k = 0 then some ⟨0, 2⟩ else none

theorem single_order : single.Order [0] := by
  refine ⟨by simp, fun k => ?_⟩
  unfold single
  by_cases h0 : k = 0 <;> simp [h0]

theorem single_ok : ScopeOk (fun _ => 2) single := by
  intro k v hv
  unfold single at hv
  split at hv
  · rename_i h; cases hv; subst h; exact ⟨rfl, rfl, show (0 : Int) < 2 by omega⟩
  · cases hv

/-- The dataset with the values `xs` of one variable. -/
def points (xs : List Int) : List VarSet := xs.map (VarSet.single 0)

theorem points_same (xs : List Int) : SameVars (points xs) := by
  intro x hx y hy k
  obtain ⟨a, _, rfl⟩ := List.mem_map.1 hx
  obtain ⟨b, _, rfl⟩ := List.mem_map.1 hy
  unfold VarSet.single
  split <;> rfl

theorem points_column (xs : List Int) : column 0 (points xs) = xs := by
  unfold column points
  rw [List.map_map]
  conv_rhs => rw [← List.map_id xs]
  apply List.map_congr_left
  intro a _
  simp [VarSet.single]

end GensExample

/-- C102 as stated is false: from one instance with the value 0 of a variable with two categories a leaf is learned that gives the probability 2/3 to 0. -/
theorem C102_refuted : ¬ ∀ (N : Net (Fin 1) XR) (eps : XR) (Sc : VarScope) (D : List VarSet) (cats : Int → Int), Acyclic N.ch → Learned N 0 2 eps 1 Sc D 0 → ScopeOk cats Sc → SameVars D → D ≠ [] →
    ∀ v x y, (Sc v).isSome → 0 ≤ x → x < cats v → N.value (VarSet.single v x) 0 = some y → unlog y = freq (column v D) x := by
  intro hall
  obtain ⟨l, _, hl, _⟩ := C51_counting (fun _ => 0) (fun n hn => hn) 0 [1, 0] (by decide) (by simp)
  let N : Net (Fin 1) XR := ⟨fun _ => .leaf l⟩
  have hac : Acyclic N.ch := ⟨fun _ => 0, fun u c hc => by simp [Net.ch, N] at hc⟩
  have hL : Learned N 0 2 (.fin 0) 1 GensExample.single (GensExample.points [0]) 0 :=
    .leaf 0 ⟨0, 2⟩ GensExample.single_order rfl (by
      unfold IsUnivariate
      rw [if_pos le_rfl]
      exact ⟨fun _ => 0, [1, 0], l, fun n hn => hn, by decide, hl, rfl⟩)
  obtain ⟨G, hG, h⟩ := C102_marginal_partial hac (le_refl 0) hL (fun _ => 2) GensExample.single_ok (GensExample.points_same _) (by simp [GensExample.points]) 0 rfl
  obtain ⟨y, hy, hy1, _⟩ := h 0 (le_refl 0) (show (0 : Int) < 2 by omega)
  have h1 := hall N (.fin 0) _ _ (fun _ => 2) hac hL GensExample.single_ok (GensExample.points_same _) (by simp [GensExample.points]) 0 0 y rfl (le_refl 0) (show (0 : Int) < 2 by omega) hy
  have h2 : N.prob (VarSet.single 0 0) 0 = 2 / 3 := by
    have := (multinom_prob hac (v := ⟨0, 2⟩) (D := GensExample.points [0]) (u := (0 : Fin 1)) (show (0 : Int) < 2 by omega) ⟨fun _ => 0, [1, 0], l, fun n hn => hn, by decide, hl, rfl⟩ (VarSet.single 0 0)).1 0 rfl (le_refl 0)
      (show (0 : Int) < 2 by omega)
    rw [this]
    simp only [GensExample.points_column]
    unfold smoothFreq
    norm_num
  rw [Net.prob, hy] at h2
  simp only [Option.map_some, Option.getD_some] at h2
  rw [h2, GensExample.points_column] at h1
  unfold freq at h1
  norm_num at h1

example : ∃ N : Net (Fin 7) XR, Acyclic N.ch ∧ Learned N 0 2 (.fin 0) 1 GensExample.scope [GensExample.d0, GensExample.d1] 0 ∧ ScopeOk (fun _ => 2) GensExample.scope ∧
    SameVars [GensExample.d0, GensExample.d1] ∧ [GensExample.d0, GensExample.d1] ≠ [] ∧ (GensExample.scope 1).isSome := by
  obtain ⟨N, h1, h2, h3, _⟩ := GensExample.learned (.fin 0) 1
  refine ⟨N, h2, h1, h3, ?_, by simp, rfl⟩
  intro x hx y hy k
  simp only [List.mem_cons, List.not_mem_nil, or_false] at hx hy
  rcases hx with rfl | rfl <;> rcases hy with rfl | rfl <;> by_cases h0 : k = 0 <;> by_cases h1 : k = 1 <;>
    simp [GensExample.d0, GensExample.d1, VarSet.set, VarSet.empty, h0, h1]

/-- The conditions of C103 for the evidence that sets only variable 1. -/
example : (∀ v x, (GensExample.scope v).isSome → VarSet.single 1 1 v = some x → 0 ≤ x ∧ x < (fun _ => 2 : Int → Int) v) ∧ [(1 : Int)].Nodup ∧
    ∀ v, v ∈ [(1 : Int)] ↔ (GensExample.scope v).isSome ∧ (VarSet.single 1 1 v).isSome := by
  refine ⟨fun v x _ hx => ?_, by simp, fun v => ?_⟩
  · simp only [VarSet.single] at hx
    split at hx
    · cases hx; exact ⟨by decide, show (1 : Int) < 2 by decide⟩
    · cases hx
  · by_cases h : v = 1
    · subst h; decide
    · simp [h, VarSet.single]

/-! ### Mixtures of Gaussians -/

/-- C104, part: a Gaussian leaf in a network that `LearnGauss` returns has as mean and standard deviation those of values that the variable has in the data (or one half
instead of a standard deviation of zero), or none at all (NaN). Missing: that it has parameters (`C104_few_refuted`), and that they do not depend on the order of the data
(`C104_order_refuted`). -/
theorem C104_leaves_partial {N : Net ι XR} {g k : Int} {eps : XR} {mp : Int} {Sc : VarScope} {D : List VarSet} {u : ι} (h : Learned N g k eps mp Sc D u) (cats : Int → Int)
    (hok : ScopeOk cats Sc) (hs : SameVars D) (n : ι) (v : Int) (mu sigma : XR) (hn : Reach N.ch u n) (hk : N.kind n = .leaf (.gaussian v mu sigma)) :
    (Sc v).isSome ∧ ∃ Q, Q.Subperm (column v D) ∧
      ((Q = [] ∧ mu = .nan ∧ sigma = .nan) ∨ (Q ≠ [] ∧ mu = .fin (sampleMean Q) ∧ sigma = .fin (if sampleSd Q = 0 then 1 / 2 else sampleSd Q))) := by
  obtain ⟨h1, col, h2, Q, h3, h4⟩ := C102_leaves h cats hok hs n _ hn hk
  exact ⟨h1, Q, h3.sublist.subperm.trans h2, h4⟩

/-- A number or NaN. -/
def FinOrNan (x : XR) : Prop := x = .nan ∨ ∃ r, x = .fin r

theorem foldl_nan {α : Type} (f : α → XR) : ∀ (l : List α) (a : XR), FinOrNan a → (∀ x ∈ l, FinOrNan (f x)) → (a = .nan ∨ ∃ x ∈ l, f x = .nan) →
    l.foldl (fun s x => GoFloat.add s (f x)) a = .nan := by
  intro l
  induction l with
  | nil => intro a _ _ h; simpa using h
  | cons b l ih =>
    intro a ha hl h
    rw [List.foldl_cons]
    have hb := hl b (by simp)
    refine ih _ ?_ (fun x hx => hl x (by simp [hx])) ?_
    · rcases ha with rfl | ⟨r, rfl⟩
      · left; rfl
      · rcases hb with e | ⟨s, e⟩
        · left; rw [e]; rfl
        · right; exact ⟨r + s, by rw [e]; rfl⟩
    · rcases h with rfl | ⟨x, hx, e⟩
      · left; rfl
      · rcases List.mem_cons.1 hx with rfl | hx
        · left
          rw [e]
          rcases ha with rfl | ⟨r, rfl⟩ <;> rfl
        · right; exact ⟨x, hx, e⟩

theorem logSumExp_has_nan {l : List XR} (h : ∀ x ∈ l, FinOrNan x) (hn : XR.nan ∈ l) : logSumExp l = some .nan := by
  cases l with
  | nil => simp at hn
  | cons a0 a =>
    unfold logSumExp
    dsimp only
    have hmx : FinOrNan ((a0 :: a).foldl (fun m v => if GoFloat.lt m v then v else m) a0) := by
      have gen : ∀ (l : List XR) (m : XR), FinOrNan m → (∀ x ∈ l, FinOrNan x) → FinOrNan (l.foldl (fun m v => if GoFloat.lt m v then v else m) m) := by
        intro l
        induction l with
        | nil => intro m hm _; exact hm
        | cons b l ih =>
          intro m hm hl
          rw [List.foldl_cons]
          refine ih _ ?_ fun x hx => hl x (by simp [hx])
          split
          · exact hl b (by simp)
          · exact hm
      exact gen _ _ (h a0 (by simp)) h
    generalize (a0 :: a).foldl (fun m v => if GoFloat.lt m v then v else m) a0 = mx at hmx ⊢
    have hinf : (GoFloat.isInf mx : Bool) = false := by rcases hmx with rfl | ⟨r, rfl⟩ <;> rfl
    rw [hinf, if_neg (by simp)]
    have := foldl_nan (fun v => GoFloat.exp (GoFloat.sub v mx)) (a0 :: a) (ofInt 0) (Or.inr ⟨_, rfl⟩) (by
      intro x hx
      rcases h x hx with rfl | ⟨r, rfl⟩
      · left; rfl
      · rcases hmx with rfl | ⟨s, rfl⟩
        · left; rfl
        · right; exact ⟨_, rfl⟩) (Or.inr ⟨.nan, hn, rfl⟩)
    rw [this]
    rfl

theorem gaussian_value {v x : Int} {mu sigma : XR} (h : (mu = .nan ∧ sigma = .nan) ∨ ∃ m s : ℝ, 0 < s ∧ mu = .fin m ∧ sigma = .fin s) :
    ∃ y, (Leaf.gaussian v mu sigma).value (VarSet.single v x) = some y ∧ FinOrNan y ∧ (mu = .nan → y = .nan) := by
  rcases h with ⟨rfl, rfl⟩ | ⟨m, s, hs, rfl, rfl⟩
  · refine ⟨.nan, ?_, Or.inl rfl, fun _ => rfl⟩
    simp [Leaf.value, VarSet.single, XR.eq, XR.normLogProb, XR.log, XR.sub, XR.add, XR.neg]
  · have e : XR.normLogProb (.fin m) (.fin s) (.fin x) = .fin (-(Real.log (2 * Real.pi) / 2) - Real.log s - ((x - m) * (x - m)) / (2 * s * s)) := by
      simp [XR.normLogProb, XR.log_pos hs, XR.sub, XR.add, XR.neg, XR.mul, XR.div, hs.ne']
      ring
    refine ⟨_, ?_, Or.inr ⟨_, e⟩, fun h => by cases h⟩
    simp [Leaf.value, VarSet.single, XR.eq, hs.ne']

/-- What `LearnGauss` returns for fewer instances than components: whatever the data, the value of every instance is NaN. -/
theorem C104_few_refuted {N : Net ι XR} (hac : Acyclic N.ch) {g k : Int} {eps : XR} {mp : Int} {Sc : VarScope} {D : List VarSet} {u : ι} (h : Learned N g k eps mp Sc D u) (cats : Int → Int)
    (hok : ScopeOk cats Sc) (v : Int) (hone : ∀ w, (Sc w).isSome ↔ w = v) (hlt : (D.length : Int) < g) (x : Int) : N.value (VarSet.single v x) u = some .nan := by
  have hord : Sc.Order [v] := ⟨by simp, fun w => by rw [hone]; simp⟩
  have hl1 : ∀ keys, Sc.Order keys → keys.length = 1 := by
    intro keys hk
    have : keys.Perm [v] := (List.perm_ext_iff_of_nodup hk.1 hord.1).2 fun a => by rw [hk.2, hord.2]
    simpa using this.length_eq
  cases h with
  | product keys _ _ _ _ ho hn => exact absurd (hl1 keys ho) hn
  | factorized keys _ ho hn => exact absurd (hl1 keys ho) hn
  | sum keys _ _ _ _ _ ho hn => exact absurd (hl1 keys ho) hn
  | leaf key w ho hw hun =>
    have hkey : key = v := (hone key).1 (by rw [hw]; rfl)
    subst hkey
    obtain ⟨hid, _, _⟩ := hok key w hw
    unfold IsUnivariate at hun
    rw [if_neg (by omega)] at hun
    obtain ⟨Q, cs, hQ, hlen, hu, hcs⟩ := hun
    obtain ⟨m, rfl⟩ := Int.eq_ofNat_of_zero_le (show 0 ≤ g by omega)
    obtain ⟨G, hG, hGl, hflat, hGne⟩ := C50_partition_partial (extractInstance w.varid D) m (by omega)
    have hQG := Option.some.inj (hQ.symm.trans hG)
    have hQlen : Q.length = m := by rw [hQG, List.length_map, hGl]
    have hempty : [] ∈ G := by
      by_contra hne
      have : G.length ≤ G.flatten.length := by
        rw [List.length_flatten]
        clear hQG hG hGl hflat hGne
        induction G with
        | nil => simp
        | cons a G ih =>
          simp only [List.mem_cons, not_or] at hne
          have h1 := ih hne.2
          have h2 : 0 < a.length := List.length_pos_iff.2 (Ne.symm hne.1)
          simp only [List.map_cons, List.sum_cons, List.length_cons]
          omega
      rw [hflat, hGl] at this
      simp [extractInstance] at this
      omega
    have hleaf : ∀ (i : Nat) (hi : i < m), ∃ mu sigma y, N.kind (cs[i]'(by omega)) = .leaf (.gaussian key mu sigma) ∧ N.value (VarSet.single key x) (cs[i]'(by omega)) = some y ∧ FinOrNan y ∧
        (G[i]'(by omega) = [] → y = .nan) := by
      intro i hi
      obtain ⟨mu, sigma, h0, h1, hck⟩ := hcs i (Q[i]'(by omega)) (cs[i]'(by omega)) (by simp) (by simp)
      have hget' : Q[i]'(by omega) = if G[i]'(by omega) = [] then [.nan, .nan, .fin 0] else [.fin (sampleMean (G[i]'(by omega))), .fin (if sampleSd (G[i]'(by omega)) = 0 then 1 / 2 else sampleSd (G[i]'(by omega))), .fin (G[i]'(by omega)).length] := by
        have : Q[i]? = (G.map fun Q => if Q = [] then [.nan, .nan, .fin 0] else [.fin (sampleMean Q), .fin (if sampleSd Q = 0 then 1 / 2 else sampleSd Q), .fin Q.length])[i]? := by rw [hQG]
        rw [List.getElem?_map, List.getElem?_eq_getElem (by omega), List.getElem?_eq_getElem (by omega)] at this
        simpa using this
      rw [hget'] at h0 h1
      rw [hid] at hck
      have hpar : ((G[i]'(by omega)) = [] ∧ mu = .nan ∧ sigma = .nan) ∨ ∃ m s : ℝ, 0 < s ∧ mu = .fin m ∧ sigma = .fin s ∧ (G[i]'(by omega)) ≠ [] := by
        by_cases he : (G[i]'(by omega)) = []
        · rw [if_pos he] at h0 h1
          simp at h0 h1
          exact Or.inl ⟨he, h0.symm, h1.symm⟩
        · rw [if_neg he] at h0 h1
          simp only [List.getElem?_cons_zero, List.getElem?_cons_succ, Option.some.injEq] at h0 h1
          refine Or.inr ⟨_, _, ?_, h0.symm, h1.symm, he⟩
          split
          · norm_num
          · rename_i hsd
            exact lt_of_le_of_ne (Real.sqrt_nonneg _) (Ne.symm hsd)
      obtain ⟨y, e1, e2, e3⟩ := gaussian_value (v := key) (x := x) (mu := mu) (sigma := sigma) (by
        rcases hpar with ⟨_, a, b⟩ | ⟨a, b, c, d, e, _⟩
        · exact Or.inl ⟨a, b⟩
        · exact Or.inr ⟨a, b, c, d, e⟩)
      refine ⟨mu, sigma, y, hck, ?_, e2, fun he => e3 ?_⟩
      · rw [Net.value_unfold hac]
        simp [Net.valueStep, hck, e1]
      · rcases hpar with ⟨_, a, _⟩ | ⟨_, _, _, _, _, f⟩
        · exact a
        · exact absurd he f
    have hc : ∀ c ∈ cs, ∃ y, N.value (VarSet.single key x) c = some y ∧ FinOrNan y := by
      intro c hc
      obtain ⟨i, hi, rfl⟩ := List.mem_iff_getElem.1 hc
      obtain ⟨_, _, y, _, e1, e2, _⟩ := hleaf i (by omega)
      exact ⟨y, e1, e2⟩
    obtain ⟨c0, hc0, hv0⟩ : ∃ c ∈ cs, N.value (VarSet.single key x) c = some .nan := by
      obtain ⟨i, hi, he⟩ := List.mem_iff_getElem.1 hempty
      obtain ⟨_, _, y, _, e1, _, e3⟩ := hleaf i (by omega)
      exact ⟨_, List.getElem_mem _, by rw [e1, e3 he]⟩
    choose! y hy using hc
    rw [Net.value_unfold hac]
    unfold Net.valueStep
    rw [hu]
    dsimp only
    rw [mapM_eq_some fun c hc => (hy c hc).1, Option.bind_some]
    have hmr : ((m : Int) : ℝ) ≠ 0 := by
      have : m ≠ 0 := by omega
      exact_mod_cast this
    have hw : ∀ q ∈ Q.map (fun _ => (GoFloat.div (ofInt 1) (ofInt (Q.length : Int)) : XR)), ∃ r, GoFloat.log q = XR.fin r := by
      intro q hq
      obtain ⟨_, _, rfl⟩ := List.mem_map.1 hq
      rw [hQlen]
      refine ⟨Real.log (1 / (m : ℝ)), ?_⟩
      have hp : (0 : ℝ) < 1 / (m : ℝ) := by
        have : (0 : ℝ) < m := by exact_mod_cast (show 0 < m by omega)
        positivity
      simp only [XR.g_ofInt, XR.g_div, XR.div_fin hmr, XR.g_log]
      have : ((1 : Int) : ℝ) / ((m : Int) : ℝ) = 1 / (m : ℝ) := by push_cast; rfl
      rw [this]
      exact XR.log_pos hp
    have gen : ∀ (vs ws : List XR), vs.length = ws.length → (∀ x ∈ vs, FinOrNan x) → (∀ q ∈ ws, ∃ r, GoFloat.log q = XR.fin r) →
        ∃ l, weighted vs ws = some l ∧ (∀ x ∈ l, FinOrNan x) ∧ (XR.nan ∈ vs → XR.nan ∈ l) := by
      intro vs
      induction vs with
      | nil => intro ws _ _ _; exact ⟨[], rfl, by simp, by simp⟩
      | cons v vs ih =>
        intro ws hlen h1 h2
        cases ws with
        | nil => simp at hlen
        | cons w ws =>
          obtain ⟨l, a1, a2, a3⟩ := ih ws (by simpa using hlen) (fun x hx => h1 x (by simp [hx])) (fun q hq => h2 q (by simp [hq]))
          obtain ⟨r, hr⟩ := h2 w (by simp)
          refine ⟨GoFloat.add v (GoFloat.log w) :: l, by simp [weighted, a1], ?_, ?_⟩
          · intro x hx
            rcases List.mem_cons.1 hx with rfl | hx
            · rw [hr]
              rcases h1 v (by simp) with rfl | ⟨s, rfl⟩
              · left; rfl
              · right; exact ⟨_, rfl⟩
            · exact a2 x hx
          · intro hn
            rcases List.mem_cons.1 hn with h | h
            · rw [← h, hr]
              exact List.mem_cons.2 (Or.inl rfl)
            · exact List.mem_cons.2 (Or.inr (a3 h))
    obtain ⟨l, a1, a2, a3⟩ := gen (cs.map y) _ (by simp [hlen]) (by
      intro x hx
      obtain ⟨c, hc, rfl⟩ := List.mem_map.1 hx
      exact (hy c hc).2) hw
    rw [a1, Option.bind_some]
    refine logSumExp_has_nan a2 (a3 ?_)
    refine List.mem_map.2 ⟨c0, hc0, ?_⟩
    have := (hy c0 hc0).1
    rw [hv0] at this
    exact (Option.some.inj this).symm

namespace GensExample

/-- A mixture of two Gaussians of variable 0. -/
noncomputable def mix (m1 s1 m2 s2 : XR) : Net (Fin 3) XR :=
  ⟨![.sum [1, 2] [.fin (1 / 2), .fin (1 / 2)], .leaf (.gaussian 0 m1 s1), .leaf (.gaussian 0 m2 s2)]⟩

theorem mix_acyclic (m1 s1 m2 s2 : XR) : Acyclic (mix m1 s1 m2 s2).ch := by
  refine ⟨fun n => 3 - n.val, fun u c hc => ?_⟩
  have : c ∈ (mix m1 s1 m2 s2).ch u := hc
  fin_cases u <;> simp [Net.ch, mix] at this <;> (try rcases this with rfl | rfl) <;> decide

theorem mix_learned {xs : List Int} {m1 s1 n1 m2 s2 n2 : XR} (h : partitionQuantiles xs 2 = some [[m1, s1, n1], [m2, s2, n2]]) (eps : XR) :
    Learned (mix m1 s1 m2 s2) 2 2 eps 1 single (points xs) 0 := by
  refine .leaf 0 ⟨0, 2⟩ single_order rfl ?_
  unfold IsUnivariate
  rw [if_neg (by omega)]
  refine ⟨[[m1, s1, n1], [m2, s2, n2]], [1, 2], ?_, rfl, ?_, ?_⟩
  · have : extractInstance 0 (points xs) = xs := points_column xs
    rw [this]; exact h
  · have : (GoFloat.div (ofInt 1) (ofInt ((2 : Nat) : Int)) : XR) = .fin (1 / 2) := by
      simp only [XR.g_ofInt, XR.g_div]
      rw [XR.div_fin (by norm_num)]
      norm_num
    simp only [List.map_cons, List.map_nil, List.length_cons, List.length_nil, Nat.zero_add, Nat.reduceAdd, this]
    rfl
  · intro i q c hq hc
    match i, hq, hc with
    | 0, hq, hc => simp at hq hc; subst hq; subst hc; exact ⟨m1, s1, rfl, rfl, rfl⟩
    | 1, hq, hc => simp at hq hc; subst hq; subst hc; exact ⟨m2, s2, rfl, rfl, rfl⟩
    | i + 2, hq, hc => simp at hq

/-- The probability density at `x` of a mixture with proper parameters. -/
theorem mix_prob (m1 s1 m2 s2 : ℝ) (h1 : 0 < s1) (h2 : 0 < s2) (x : Int) :
    ∃ y, (mix (.fin m1) (.fin s1) (.fin m2) (.fin s2)).value (VarSet.single 0 x) 0 = some y ∧
      unlog y = 1 / 2 * Real.exp (-(Real.log (2 * Real.pi) / 2) - Real.log s1 - ((x - m1) * (x - m1)) / (2 * s1 * s1)) +
        1 / 2 * Real.exp (-(Real.log (2 * Real.pi) / 2) - Real.log s2 - ((x - m2) * (x - m2)) / (2 * s2 * s2)) := by
  set N := mix (.fin m1) (.fin s1) (.fin m2) (.fin s2) with hN
  have hac : Acyclic N.ch := mix_acyclic _ _ _ _
  have hval : ∀ m s : ℝ, 0 < s → (Leaf.gaussian 0 (.fin m) (.fin s) : Leaf XR).value (VarSet.single 0 x) =
      some (.fin (-(Real.log (2 * Real.pi) / 2) - Real.log s - ((x - m) * (x - m)) / (2 * s * s))) := by
    intro m s hs
    simp [Leaf.value, VarSet.single, XR.eq, hs.ne', XR.normLogProb, XR.log_pos hs, XR.sub, XR.add, XR.neg, XR.mul, XR.div]
    ring
  have hk0 : N.kind 0 = .sum [1, 2] ([1 / 2, 1 / 2].map XR.fin) := rfl
  have hk1 : N.kind 1 = .leaf (.gaussian 0 (.fin m1) (.fin s1)) := rfl
  have hk2 : N.kind 2 = .leaf (.gaussian 0 (.fin m2) (.fin s2)) := rfl
  have h3 : ∀ n : Fin 3, n = 0 ∨ n = 1 ∨ n = 2 := by decide
  have hw : NonnegWeights N 0 := by
    intro n _ cs w hk
    rcases h3 n with rfl | rfl | rfl
    · rw [hk0] at hk
      cases hk
      exact ⟨by simp, [1 / 2, 1 / 2], rfl, by simp, by norm_num⟩
    · rw [hk1] at hk; cases hk
    · rw [hk2] at hk; cases hk
  have hl : LeavesEval N 0 (VarSet.single 0 x) := by
    intro n l _ hk
    rcases h3 n with rfl | rfl | rfl
    · rw [hk0] at hk; cases hk
    · rw [hk1] at hk; cases hk; exact ⟨_, hval m1 s1 h1, trivial⟩
    · rw [hk2] at hk; cases hk; exact ⟨_, hval m2 s2 h2, trivial⟩
  obtain ⟨⟨y, e1, _, e3⟩, _, e4⟩ := Net.prob_spec hac hw hl (n := 0) Relation.ReflTransGen.refl
  refine ⟨y, e1, ?_⟩
  rw [e3, e4 [1, 2] [1 / 2, 1 / 2] hk0]
  simp only [List.map_cons, List.map_nil, wsum_cons, wsum_nil, add_zero]
  rw [gens_prob_leaf hac hk1, gens_prob_leaf hac hk2, hval m1 s1 h1, hval m2 s2 h2]
  rfl

theorem quant_sorted : (partitionQuantiles [0, 0, 2, 2] 2 : Option (List (List XR))) = some [[.fin 0, .fin (1 / 2), .fin 2], [.fin 2, .fin (1 / 2), .fin 2]] := by
  have := partitionQuantiles_eq [0, 0, 2, 2] 2 (by omega)
  rw [show ((2 : Nat) : Int) = 2 from rfl] at this
  rw [this]
  have e : quantGroups [0, 0, 2, 2] (if ([0, 0, 2, 2] : List Int).length < 2 * 2 then 1 else (2 * ([0, 0, 2, 2] : List Int).length + 2) / (2 * 2)) 2 = [[0, 0], [2, 2]] := by decide
  rw [e]
  simp only [List.map_cons, List.map_nil]
  rw [quantStats_eq [0, 0] (by simp), quantStats_eq [2, 2] (by simp)]
  have a1 : sampleMean [0, 0] = 0 := by norm_num [sampleMean, total]
  have a2 : sampleMean [2, 2] = 2 := by norm_num [sampleMean, total]
  have a3 : sampleSd [0, 0] = 0 := by norm_num [sampleSd, a1, total]
  have a4 : sampleSd [2, 2] = 0 := by norm_num [sampleSd, a2, total]
  rw [a1, a2, a3, a4]
  norm_num

theorem quant_mixed : (partitionQuantiles [0, 2, 0, 2] 2 : Option (List (List XR))) = some [[.fin 1, .fin 1, .fin 2], [.fin 1, .fin 1, .fin 2]] := by
  have := partitionQuantiles_eq [0, 2, 0, 2] 2 (by omega)
  rw [show ((2 : Nat) : Int) = 2 from rfl] at this
  rw [this]
  have e : quantGroups [0, 2, 0, 2] (if ([0, 2, 0, 2] : List Int).length < 2 * 2 then 1 else (2 * ([0, 2, 0, 2] : List Int).length + 2) / (2 * 2)) 2 = [[0, 2], [0, 2]] := by decide
  rw [e]
  simp only [List.map_cons, List.map_nil]
  rw [quantStats_eq [0, 2] (by simp)]
  have a1 : sampleMean [0, 2] = 1 := by norm_num [sampleMean, total]
  have a3 : sampleSd [0, 2] = 1 := by norm_num [sampleSd, a1, total]
  rw [a1, a3]
  norm_num

end GensExample

/-- The mixture depends on the order of the instances: from the values 0, 0, 2, 2 and from 0, 2, 0, 2 `LearnGauss` learns different distributions. -/
theorem C104_order_refuted : ¬ ∀ (N N' : Net (Fin 3) XR) (eps : XR) (Sc : VarScope) (D D' : List VarSet), Acyclic N.ch → Acyclic N'.ch → D.Perm D' → SameVars D →
    Learned N 2 2 eps 1 Sc D 0 → Learned N' 2 2 eps 1 Sc D' 0 → ∀ I, N.value I 0 = N'.value I 0 := by
  intro h
  have := h _ _ (.fin 0) _ _ _ (GensExample.mix_acyclic _ _ _ _) (GensExample.mix_acyclic _ _ _ _)
    (show (GensExample.points [0, 0, 2, 2]).Perm (GensExample.points [0, 2, 0, 2]) from List.Perm.map _ (by decide)) (GensExample.points_same _)
    (GensExample.mix_learned GensExample.quant_sorted (.fin 0)) (GensExample.mix_learned GensExample.quant_mixed (.fin 0)) (VarSet.single 0 1)
  obtain ⟨y, a1, a2⟩ := GensExample.mix_prob 0 (1 / 2) 2 (1 / 2) (by norm_num) (by norm_num) 1
  obtain ⟨z, b1, b2⟩ := GensExample.mix_prob 1 1 1 1 (by norm_num) (by norm_num) 1
  rw [a1, b1] at this
  cases this
  rw [a2] at b2
  have e1 : ((1 : Int) : ℝ) - 0 = 1 := by norm_num
  have e2 : (((1 : Int) : ℝ) - 2) * (((1 : Int) : ℝ) - 2) = 1 := by norm_num
  have e3 : (((1 : Int) : ℝ) - 1) * (((1 : Int) : ℝ) - 1) = 0 := by norm_num
  rw [e1, e2, e3, Real.log_one, one_div, Real.log_inv] at b2
  have h3 : Real.exp (-(Real.log (2 * Real.pi) / 2) + Real.log 2 - 2) = Real.exp (-(Real.log (2 * Real.pi) / 2)) := by
    norm_num at b2
    linarith
  have h4 := Real.exp_injective h3
  have h5 := Real.log_lt_sub_one_of_pos (show (0 : ℝ) < 2 by norm_num) (by norm_num)
  linarith

/-- The conditions of `C104_few_refuted` and of `C104_leaves_partial`: one instance, two components. -/
example : ∃ (N : Net (Fin 3) XR), Acyclic N.ch ∧ Learned N 2 2 (.fin 0) 1 GensExample.single (GensExample.points [5]) 0 ∧ ScopeOk (fun _ => 2) GensExample.single ∧
    (∀ w, (GensExample.single w).isSome ↔ w = 0) ∧ ((GensExample.points [5]).length : Int) < 2 ∧ SameVars (GensExample.points [5]) := by
  have h : (partitionQuantiles [5] 2 : Option (List (List XR))) = some [[.fin 5, .fin (1 / 2), .fin 1], [.nan, .nan, .fin 0]] := by
    have := partitionQuantiles_eq [5] 2 (by omega)
    rw [show ((2 : Nat) : Int) = 2 from rfl] at this
    rw [this]
    have e : quantGroups [5] (if ([5] : List Int).length < 2 * 2 then 1 else (2 * ([5] : List Int).length + 2) / (2 * 2)) 2 = [[5], []] := by decide
    rw [e]
    simp only [List.map_cons, List.map_nil]
    rw [quantStats_eq [5] (by simp), quantStats_nil]
    have a1 : sampleMean [5] = 5 := by norm_num [sampleMean, total]
    have a3 : sampleSd [5] = 0 := by norm_num [sampleSd, a1, total]
    rw [a1, a3]
    norm_num
  refine ⟨_, GensExample.mix_acyclic _ _ _ _, GensExample.mix_learned h (.fin 0), GensExample.single_ok, fun w => ?_, by simp [GensExample.points], GensExample.points_same _⟩
  rw [← GensExample.single_order.2]
  simp

end Gospn
