import Verif.Props.Semantics
/-!
Property C78: how `Value`, `Max` and `ArgMax` depend on the evidence.
-/
set_option linter.unusedSectionVars false
namespace Gospn
open Spec GoFloat

variable {ι : Type} [DecidableEq ι] [Fintype ι]

section AnyFloat
variable {F : Type} [GoFloat F]

theorem Leaf.argMax_var (l : Leaf F) {I J : VarSet} (h : I (leafVar l) = J (leafVar l)) : l.argMax I = l.argMax J := by
  cases l <;> simp only [leafVar] at h <;> simp [Leaf.argMax, h]

theorem Leaf.argMax_sets (l : Leaf F) {I M : VarSet} {m : F} (h : l.argMax I = some (M, m)) {v x : Int} (hv : M v = some x) : leafVar l = v := by
  have key : ∀ u y, (VarSet.single u y) v = some x → u = v := by
    intro u y hs
    simp only [VarSet.single] at hs
    split at hs
    · rename_i h1; exact h1.symm
    · cases hs
  cases l with
  | indicator u y =>
    simp only [Leaf.argMax] at h
    split at h
    · have := Option.some.inj h; rw [Prod.mk.injEq] at this; rw [← this.1] at hv; exact key _ _ hv
    · split at h
      · have := Option.some.inj h; rw [Prod.mk.injEq] at this; rw [← this.1] at hv; exact key _ _ hv
      · have := Option.some.inj h; rw [Prod.mk.injEq] at this; rw [← this.1] at hv; cases hv
  | multinomial sc u pr mi mv =>
    simp only [Leaf.argMax] at h
    split at h
    · obtain ⟨p, _, hp⟩ := Option.map_eq_some_iff.1 h
      rw [Prod.mk.injEq] at hp; rw [← hp.1] at hv; exact key _ _ hv
    · have := Option.some.inj h; rw [Prod.mk.injEq] at this; rw [← this.1] at hv; exact key _ _ hv
  | gaussian u mu s =>
    simp only [Leaf.argMax] at h
    split at h
    · have := Option.some.inj h; rw [Prod.mk.injEq] at this; rw [← this.1] at hv; exact key _ _ hv
    · split at h <;> (have := Option.some.inj h; rw [Prod.mk.injEq] at this; rw [← this.1] at hv; exact key _ _ hv)

theorem Net.argMax_congr {N : Net ι F} (hac : Acyclic N.ch) {I J : VarSet} :
    ∀ n, (∀ v, InScope N n v → I v = J v) → N.argMax I n = N.argMax J n := by
  obtain ⟨rank, hr⟩ := id hac
  intro n
  induction hn : rank n using Nat.strong_induction_on generalizing n with
  | _ k ih =>
    intro h
    have ihc : ∀ c ∈ N.ch n, N.argMax I c = N.argMax J c := fun c hc =>
      ih (rank c) (by rw [← hn]; exact hr n c hc) c rfl (fun v hv => h v (InScope.child hc hv))
    rw [Net.argMax_unfold hac I, Net.argMax_unfold hac J, N.argMax_local I (N.max I) _ (N.argMax J) n ihc]
    unfold Net.argMaxStep
    cases hk : N.kind n with
    | leaf l => exact l.argMax_var (h _ ((InScope.of_leaf hk).2 rfl))
    | product cs => rfl
    | sum cs w =>
      have hcs : N.ch n = cs := by simp [Net.ch, hk]
      dsimp only
      rw [mapM_congr (fun c hc => Net.max_congr hac (fun v hv => h v (InScope.child (hcs ▸ hc) hv)))]

theorem override_fold_sets {α : Type} (rs : List (VarSet × α)) (f : α → α → α) : ∀ (M : VarSet) (m : α) {v x : Int},
    (rs.foldl (fun (M, v) r => (M.override r.1, f v r.2)) (M, m)).1 v = some x → M v = some x ∨ ∃ r ∈ rs, r.1 v = some x := by
  induction rs with
  | nil => intro M m v x h; exact Or.inl h
  | cons r rs ih =>
    intro M m v x h
    rcases ih _ _ h with h1 | ⟨r', h1, h2⟩
    · simp only [VarSet.override] at h1
      cases hr : r.1 v with
      | none => rw [hr] at h1; exact Or.inl (by simpa using h1)
      | some y => rw [hr] at h1; exact Or.inr ⟨r, by simp, by rw [hr]; simpa using h1⟩
    · exact Or.inr ⟨r', by simp [h1], h2⟩

theorem mapM_mem_of_some {α β : Type} {f : α → Option β} : ∀ {l : List α} {rs : List β}, l.mapM f = some rs → ∀ r ∈ rs, ∃ a ∈ l, f a = some r := by
  intro l
  induction l with
  | nil => intro rs h r hr; simp at h; subst h; cases hr
  | cons a l ih =>
    intro rs h r hr
    rw [List.mapM_cons] at h
    cases ha : f a with
    | none => simp [ha] at h
    | some b =>
      cases hl : l.mapM f with
      | none => simp [ha, hl] at h
      | some bs =>
        simp [ha, hl] at h
        subst h
        rcases List.mem_cons.1 hr with rfl | hr
        · exact ⟨a, by simp, ha⟩
        · obtain ⟨c, hc, h2⟩ := ih hl r hr; exact ⟨c, by simp [hc], h2⟩

theorem Net.argMax_sets {N : Net ι F} (hac : Acyclic N.ch) {I : VarSet} :
    ∀ n (M : VarSet) (m : F), N.argMax I n = some (M, m) → ∀ v x, M v = some x → InScope N n v := by
  obtain ⟨rank, hr⟩ := id hac
  intro n
  induction hn : rank n using Nat.strong_induction_on generalizing n with
  | _ k ih =>
    intro M m h v x hv
    have ihc : ∀ c ∈ N.ch n, ∀ (M : VarSet) (m : F), N.argMax I c = some (M, m) → ∀ v x, M v = some x → InScope N n v := fun c hc M m h v x hv =>
      InScope.child hc (ih (rank c) (by rw [← hn]; exact hr n c hc) c rfl M m h v x hv)
    rw [Net.argMax_unfold hac I] at h
    unfold Net.argMaxStep at h
    cases hk : N.kind n with
    | leaf l =>
      rw [hk] at h
      exact (InScope.of_leaf hk).2 (l.argMax_sets h hv)
    | product cs =>
      have hcs : N.ch n = cs := by simp [Net.ch, hk]
      rw [hk] at h
      obtain ⟨rs, h1, h2⟩ := Option.map_eq_some_iff.1 h
      rw [← show _ = M from congrArg Prod.fst h2] at hv
      rcases override_fold_sets rs add _ _ hv with h3 | ⟨r, h3, h4⟩
      · cases h3
      · obtain ⟨c, hc, h5⟩ := mapM_mem_of_some h1 r h3
        exact ihc c (hcs ▸ hc) r.1 r.2 h5 v x h4
    | sum cs w =>
      have hcs : N.ch n = cs := by simp [Net.ch, hk]
      rw [hk] at h
      obtain ⟨vs, h1, h⟩ := Option.bind_eq_some_iff.1 h
      obtain ⟨us, h2, h⟩ := Option.bind_eq_some_iff.1 h
      split at h
      · cases h
      · rename_i mch mm hm
        obtain ⟨r, h3, h4⟩ := Option.map_eq_some_iff.1 h
        rw [← show r.1 = M from congrArg Prod.fst h4] at hv
        have hmem : mch ∈ cs := by
          rcases argMaxChild_mem (cs.zip us) (none, ninf) mch (by rw [hm]) with h5 | h5
          · cases h5
          · obtain ⟨p, hp, rfl⟩ := List.mem_map.1 h5
            exact (List.of_mem_zip hp).1
        exact ihc mch (hcs ▸ hmem) r.1 r.2 h3 v x hv

/-- C78, locality: in any network without cycles and any floating point arithmetic, `Value`, `Max` and `ArgMax` of a node give the same result (bit for bit, or
the same panic) for evidence that agrees on the variables of the node, and the state `ArgMax` returns sets variables of the node only. -/
theorem C78_scope_only (N : Net ι F) (S : ι) (I J : VarSet) (hac : Acyclic N.ch) (h : ∀ v, InScope N S v → I v = J v) :
    N.value I S = N.value J S ∧ N.max I S = N.max J S ∧ N.argMax I S = N.argMax J S ∧
      ∀ M m, N.argMax I S = some (M, m) → ∀ v x, M v = some x → InScope N S v :=
  ⟨Net.value_congr hac h, Net.max_congr hac h, Net.argMax_congr hac S h, fun M m hm => Net.argMax_sets hac S M m hm⟩

end AnyFloat

example : Acyclic mixNet.ch ∧ VarSet.single 1 0 ≠ Function.update (VarSet.single 1 0) 5 (some 3) ∧
    ∀ v, InScope mixNet 0 v → VarSet.single 1 0 v = Function.update (VarSet.single 1 0) 5 (some 3) v := by
  refine ⟨mixNet_acyclic, ?_, ?_⟩
  · intro h; have := congrFun h 5; simp [VarSet.single] at this
  · intro v hv
    rw [InScope.of_node (by intro l h; cases h)] at hv
    obtain ⟨c, hc, hv⟩ := hv
    have hc : c = 1 ∨ c = 2 := by simpa [mixNet, Net.ch] using hc
    have : v = 0 ∨ v = 1 := by
      rcases hc with rfl | rfl
      · exact (mixNet_scope1 v).1 hv
      · exact (mixNet_scope2 v).1 hv
    rw [Function.update_of_ne (by omega)]

/-! ### More evidence, less probability -/

theorem Net.prob_nonneg (N : Net ι XR) (I : VarSet) (n : ι) : 0 ≤ N.prob I n := by
  unfold Net.prob
  cases N.value I n with
  | none => simp
  | some x => simpa using unlog_nonneg x

theorem Net.prob_some {N : Net ι XR} {I : VarSet} {n : ι} {x : XR} (h : N.value I n = some x) : N.prob I n = unlog x := by simp [Net.prob, h]

theorem wsum_mono (r : List ℝ) (cs : List ι) (f g : ι → ℝ) (hr : ∀ x ∈ r, 0 ≤ x) (h : ∀ c ∈ cs, f c ≤ g c) : wsum r (cs.map f) ≤ wsum r (cs.map g) := by
  induction cs generalizing r with
  | nil => cases r <;> simp [wsum]
  | cons c cs ih =>
    cases r with
    | nil => simp [wsum]
    | cons a r =>
      simp only [List.map_cons, wsum_cons]
      exact add_le_add (mul_le_mul_of_nonneg_left (h c (by simp)) (hr a (by simp))) (ih r (fun x hx => hr x (by simp [hx])) (fun d hd => h d (by simp [hd])))

theorem wsum_term_le (r : List ℝ) (cs : List ι) (f : ι → ℝ) (hr : ∀ x ∈ r, 0 ≤ x) (hf : ∀ c ∈ cs, 0 ≤ f c) (i : Nat) (h1 : i < r.length) (h2 : i < cs.length) :
    r[i] * f cs[i] ≤ wsum r (cs.map f) := by
  induction cs generalizing r i with
  | nil => simp at h2
  | cons c cs ih =>
    cases r with
    | nil => simp at h1
    | cons a r =>
      have hr' : ∀ x ∈ r, 0 ≤ x := fun x hx => hr x (by simp [hx])
      have hf' : ∀ d ∈ cs, 0 ≤ f d := fun d hd => hf d (by simp [hd])
      have h0 : 0 ≤ wsum r (cs.map f) := by
        have := wsum_mono r cs (fun _ => 0) f hr' hf'
        refine le_trans (le_of_eq ?_) this
        clear this ih hr hf h1 h2 hf'
        induction cs generalizing r with
        | nil => cases r <;> simp [wsum]
        | cons d cs ih2 =>
          cases r with
          | nil => simp [wsum]
          | cons b r => simp only [List.map_cons, wsum_cons, mul_zero, zero_add]; exact ih2 r (fun x hx => hr' x (by simp [hx]))
      simp only [List.map_cons, wsum_cons]
      cases i with
      | zero => simpa using h0
      | succ i =>
        have := ih r hr' hf' i (by simpa using h1) (by simpa using h2)
        have h3 : 0 ≤ a * f c := mul_nonneg (hr a (by simp)) (hf c (by simp))
        simp only [List.getElem_cons_succ]
        linarith

theorem leaf_value_le_one {dom : Int → Finset Int} {l : Leaf XR} (hd : DiscreteLeaf dom l) (I : VarSet) {x : XR} (hx : l.value I = some x) : unlog x ≤ 1 := by
  cases l with
  | indicator v y =>
    simp only [Leaf.value] at hx
    split at hx
    · have := Option.some.inj hx; subst this; simp
    · split at hx <;> (have := Option.some.inj hx; subst this; simp)
  | gaussian v m s => exact absurd hd id
  | multinomial sc v pr mi mv =>
    obtain ⟨q, rfl, h1, h2, h3⟩ := hd
    simp only [Leaf.value] at hx
    split at hx
    · rename_i u _
      obtain ⟨p, hp, hpx⟩ := Option.map_eq_some_iff.1 hx
      have hmem : p ∈ q.map XR.fin := by
        simp only [goIdx] at hp
        split at hp
        · cases hp
        · exact List.mem_of_getElem? hp
      obtain ⟨a, ha, rfl⟩ := List.mem_map.1 hmem
      have e := (log_nonneg_spec (h1 a ha)).2
      have : unlog x = a := by rw [← hpx]; exact e
      rw [this, ← h2]
      exact List.single_le_sum h1 a ha
    · have := Option.some.inj hx; subst this; simp

theorem leaf_value_unobserved {dom : Int → Finset Int} {l : Leaf XR} (hd : DiscreteLeaf dom l) {I : VarSet} (hI : I (leafVar l) = none) :
    l.value I = some (.fin 0) := by
  cases l with
  | indicator v y => simp only [leafVar] at hI; simp [Leaf.value, hI]
  | gaussian v m s => exact absurd hd id
  | multinomial sc v pr mi mv => simp only [leafVar] at hI; simp [Leaf.value, hI]

theorem Net.prob_mono {N : Net ι XR} (hac : Acyclic N.ch) {S : ι} {dom : Int → Finset Int} (hw : NonnegWeights N S)
    (hl : DiscreteLeaves N S dom) {I J : VarSet} (hI : InDomain N S (fun v => ↑(dom v)) I) (hJ : InDomain N S (fun v => ↑(dom v)) J) :
    ∀ n, Reach N.ch S n → Extends N n I J → N.prob J n ≤ N.prob I n := by
  obtain ⟨rank, hr⟩ := id hac
  intro n
  induction hn : rank n using Nat.strong_induction_on generalizing n with
  | _ k ih =>
    intro hreach hext
    have ihc : ∀ c ∈ N.ch n, N.prob J c ≤ N.prob I c := fun c hc =>
      ih (rank c) (by rw [← hn]; exact hr n c hc) c rfl (Relation.ReflTransGen.tail hreach hc) (fun v hv => hext v (InScope.child hc hv))
    have hPI := Net.prob_spec hac hw (discrete_eval hl hI) hreach
    have hPJ := Net.prob_spec hac hw (discrete_eval hl hJ) hreach
    cases hk : N.kind n with
    | leaf l =>
      cases hv : I (leafVar l) with
      | some x =>
        refine le_of_eq (Net.prob_congr hac (fun v hs => ?_))
        rw [InScope.of_leaf hk] at hs
        subst hs
        rw [hv]; exact hext _ ((InScope.of_leaf hk).2 rfl) x hv
      | none =>
        have h1 : ∀ K, N.value K n = l.value K := fun K => by rw [Net.value_unfold hac]; simp [Net.valueStep, hk]
        have h2 := leaf_value_unobserved (hl n l hreach hk) hv
        obtain ⟨y, hy, _⟩ := hPJ.1
        rw [Net.prob_some hy, Net.prob_some ((h1 I).trans h2)]
        simpa using leaf_value_le_one (hl n l hreach hk) J ((h1 J).symm.trans hy)
    | product cs =>
      have hcs : N.ch n = cs := by simp [Net.ch, hk]
      rw [hPI.2.1 cs hk, hPJ.2.1 cs hk]
      exact (prod_le_prod_of _ _ cs (fun c hc => ⟨N.prob_nonneg J c, ihc c (hcs ▸ hc)⟩)).2
    | sum cs w =>
      have hcs : N.ch n = cs := by simp [Net.ch, hk]
      obtain ⟨_, r, rfl, _, h2⟩ := hw n hreach cs w hk
      rw [hPI.2.2 cs r hk, hPJ.2.2 cs r hk]
      exact wsum_mono r cs _ _ h2 (fun c hc => ihc c (hcs ▸ hc))

/-- C78, more evidence: on any network without cycles with non-negative weights and discrete leaves (valid or not), setting further variables never raises the
probability; if the weights are distributions, no probability exceeds one. -/
theorem C78_more_evidence (N : Net ι XR) (S : ι) (dom : Int → Finset Int) (I J : VarSet) (hac : Acyclic N.ch) (hw : NonnegWeights N S)
    (hl : DiscreteLeaves N S dom) (hI : InDomain N S (fun v => (dom v : Set Int)) I) (hJ : InDomain N S (fun v => (dom v : Set Int)) J)
    (hext : Extends N S I J) :
    ∃ x y, N.value I S = some x ∧ N.value J S = some y ∧ IsLogProb x ∧ IsLogProb y ∧ unlog y ≤ unlog x ∧ (DistWeights N S → unlog x ≤ 1) := by
  obtain ⟨x, hx, hx'⟩ := Net.value_ok hac hw (discrete_eval hl hI) S Relation.ReflTransGen.refl
  obtain ⟨y, hy, hy'⟩ := Net.value_ok hac hw (discrete_eval hl hJ) S Relation.ReflTransGen.refl
  refine ⟨x, y, hx, hy, hx', hy', ?_, fun hd => ?_⟩
  · have := Net.prob_mono hac hw hl hI hJ S Relation.ReflTransGen.refl hext
    rwa [Net.prob_some hx, Net.prob_some hy] at this
  · have h0 : InDomain N S (fun v => ↑(dom v)) (fun _ => none) := fun v _ x h => by cases h
    have h1 := Net.prob_mono hac hw hl h0 hI S Relation.ReflTransGen.refl (fun v _ x h => by cases h)
    rw [Net.prob_empty hac hd hl (fun _ _ => rfl) S Relation.ReflTransGen.refl, Net.prob_some hx] at h1
    exact h1

/-- C78, summing out: on a valid network with discrete leaves and non-negative weights, the probabilities with a further variable of `S` set to each value of its
domain add up to the probability without it. -/
theorem C78_sum_out (N : Net ι XR) (S : ι) (dom : Int → Finset Int) (I : VarSet) (hac : Acyclic N.ch) (hcomp : IsComplete N S) (hdec : IsDecomposable N S)
    (hw : NonnegWeights N S) (hl : DiscreteLeaves N S dom) (hI : InDomain N S (fun v => (dom v : Set Int)) I) (v : Int) (hs : InScope N S v) (hv : I v = none) :
    ∃ (x : XR) (f : Int → XR), N.value I S = some x ∧ IsLogProb x ∧
      (∀ a ∈ dom v, N.value (Function.update I v (some a)) S = some (f a) ∧ IsLogProb (f a)) ∧ unlog x = ∑ a ∈ dom v, unlog (f a) := by
  obtain ⟨x, hx, hx'⟩ := Net.value_ok hac hw (discrete_eval hl hI) S Relation.ReflTransGen.refl
  have hf : ∀ a ∈ dom v, ∃ y, N.value (Function.update I v (some a)) S = some y ∧ IsLogProb y := fun a ha =>
    Net.value_ok hac hw (discrete_eval hl (hI.update ha)) S Relation.ReflTransGen.refl
  choose! f hf using hf
  refine ⟨x, f, hx, hx', hf, ?_⟩
  have := Net.prob_marginal hac hcomp hdec hw hl hI hv S Relation.ReflTransGen.refl hs
  rw [Net.prob_some hx] at this
  rw [this]
  exact Finset.sum_congr rfl (fun a ha => Net.prob_some (hf a ha).1)

theorem Net.pmax_le_prob {N : Net ι XR} (hac : Acyclic N.ch) {S : ι} {dom : Int → Finset Int} (hw : NonnegWeights N S)
    (hl : DiscreteLeaves N S dom) (hm : ∀ n l, Reach N.ch S n → N.kind n = .leaf l → MaxLeaf (fun v => ↑(dom v)) l) {I : VarSet}
    (hI : InDomain N S (fun v => ↑(dom v)) I) : ∀ n, Reach N.ch S n → N.pmax I n ≤ N.prob I n := by
  obtain ⟨rank, hr⟩ := id hac
  have hmI := leaves_max hm hI
  intro n
  induction hn : rank n using Nat.strong_induction_on generalizing n with
  | _ k ih =>
    intro hreach
    have ihc : ∀ c ∈ N.ch n, N.pmax I c ≤ N.prob I c := fun c hc =>
      ih (rank c) (by rw [← hn]; exact hr n c hc) c rfl (Relation.ReflTransGen.tail hreach hc)
    have hPI := Net.prob_spec hac hw (discrete_eval hl hI) hreach
    cases hk : N.kind n with
    | leaf l =>
      obtain ⟨x, hx, hx'⟩ := hmI n l hreach hk
      obtain ⟨y, hy, hy', _⟩ := hPI.1
      have e1 : N.max I n = some x := by rw [Net.max_unfold hac]; simp [Net.maxStep, hk, hx]
      have e2 : l.value I = some y := by rw [← hy, Net.value_unfold hac]; simp [Net.valueStep, hk]
      rw [Net.pmax_some e1, Net.prob_some hy]
      have hd := hl n l hreach hk
      have hml := hm n l hreach hk
      cases l with
      | gaussian v m s => exact absurd hd id
      | indicator v z =>
        have : x = y := by
          simp only [Leaf.max] at hx
          simp only [Leaf.value] at e2
          cases hv : I v with
          | none => rw [hv] at hx e2; exact Option.some.inj (hx.symm.trans e2)
          | some u => rw [hv] at hx e2; exact Option.some.inj (hx.symm.trans e2)
        rw [this]
      | multinomial sc v pr mi mv =>
        simp only [Leaf.max] at hx
        simp only [Leaf.value] at e2
        cases hv : I v with
        | some u => rw [hv] at hx e2; rw [Option.some.inj (hx.symm.trans e2)]
        | none =>
          rw [hv] at hx e2
          obtain ⟨q', rfl, h1', h2', _⟩ := hd
          obtain ⟨q, k, m, hq, h1, rfl, h2, rfl, h3, h4, h5⟩ := hml
          have : q' = q := List.map_injective_iff.2 (fun a b h => by simpa using h) hq
          subst this
          have hmem := List.mem_of_getElem? h2
          have e3 : unlog x = m := by rw [← Option.some.inj hx]; exact (log_nonneg_spec (h1 m hmem)).2
          have e4 : unlog y = 1 := by rw [← Option.some.inj e2]; simp
          rw [e3, e4, ← h2']
          exact List.single_le_sum h1 m hmem
    | product cs =>
      have hcs : N.ch n = cs := by simp [Net.ch, hk]
      rw [Net.max_product hac hw hmI hreach hk, hPI.2.1 cs hk]
      exact (prod_le_prod_of _ _ cs (fun c hc => ⟨N.pmax_nonneg I c, ihc c (hcs ▸ hc)⟩)).2
    | sum cs w =>
      have hcs : N.ch n = cs := by simp [Net.ch, hk]
      obtain ⟨_, r, rfl, _, _⟩ := hw n hreach cs w hk
      obtain ⟨g, us, h1, h2, h3, h4, h5, h6, h7, h8⟩ := Net.max_sum hac hw hmI hreach hk
      rw [Net.pmax_some h6, hPI.2.2 cs r hk]
      rcases (maxCompute_spec us h4).2.1 with h | h
      · rw [h]
        have : (0 : ℝ) ≤ N.prob I n := N.prob_nonneg I n
        rw [hPI.2.2 cs r hk] at this
        simpa using this
      · obtain ⟨i, hi, he⟩ := List.getElem_of_mem h
        have hi2 : i < cs.length := by omega
        have hi3 : i < r.length := by omega
        have e2 : unlog us[i] = r[i] * N.pmax I cs[i] := by
          have := congrArg (fun l => l[i]?) h5
          simpa [List.getElem?_zipWith, hi, hi2, hi3] using this
        rw [← he, e2]
        refine (mul_le_mul_of_nonneg_left (ihc cs[i] (by rw [hcs]; exact List.getElem_mem hi2)) (h8 _ (List.getElem_mem hi3))).trans ?_
        exact wsum_term_le r cs (N.prob I) h8 (fun c _ => N.prob_nonneg I c) i hi3 hi2

/-- C78, MAP value and probability: with discrete leaves, proper modes and non-negative weights, `Max` of evidence never exceeds its `Value`. -/
theorem C78_max_le_value (N : Net ι XR) (S : ι) (dom : Int → Finset Int) (I : VarSet) (hac : Acyclic N.ch) (hw : NonnegWeights N S)
    (hl : DiscreteLeaves N S dom) (hm : ∀ n l, Reach N.ch S n → N.kind n = .leaf l → MaxLeaf (fun v => (dom v : Set Int)) l)
    (hI : InDomain N S (fun v => (dom v : Set Int)) I) :
    ∃ x y, N.max I S = some x ∧ N.value I S = some y ∧ IsLogProb x ∧ IsLogProb y ∧ unlog x ≤ unlog y := by
  obtain ⟨x, hx, hx'⟩ := Net.max_ok hac hw (leaves_max hm hI) S Relation.ReflTransGen.refl
  obtain ⟨y, hy, hy'⟩ := Net.value_ok hac hw (discrete_eval hl hI) S Relation.ReflTransGen.refl
  refine ⟨x, y, hx, hy, hx', hy', ?_⟩
  have := Net.pmax_le_prob hac hw hl hm hI S Relation.ReflTransGen.refl
  rwa [Net.pmax_some hx, Net.prob_some hy] at this

/-- The hypotheses of the three theorems above are met by `mixNet` with and without evidence on the variable 1. -/
example : Acyclic mixNet.ch ∧ IsComplete mixNet 0 ∧ IsDecomposable mixNet 0 ∧ NonnegWeights mixNet 0 ∧ DiscreteLeaves mixNet 0 (fun _ => {0, 1}) ∧
    (∀ n l, Reach mixNet.ch 0 n → mixNet.kind n = .leaf l → MaxLeaf (fun v => ((fun _ => {0, 1} : Int → Finset Int) v : Set Int)) l) ∧
    InDomain mixNet 0 (fun v => ((fun _ => {0, 1} : Int → Finset Int) v : Set Int)) (fun _ => none) ∧
    InDomain mixNet 0 (fun v => ((fun _ => {0, 1} : Int → Finset Int) v : Set Int)) (VarSet.single 1 0) ∧
    Extends mixNet 0 (fun _ => none) (VarSet.single 1 0) ∧ InScope mixNet 0 1 := by
  refine ⟨mixNet_acyclic, mixNet_complete, mixNet_decomposable, mixNet_weights.nonneg, mixNet_discrete, ?_, ?_, ?_, ?_, ?_⟩
  · have h := (mixNet_map (fun _ => none) (fun _ _ _ h => by cases h)).leaves
    intro n l hn hk
    have := h n l hn hk
    simpa using this
  · intro v _ x hx; cases hx
  · intro v _ x hx
    simp only [VarSet.single] at hx
    split at hx <;> simp at hx
    simp [← hx]
  · intro v _ x hx; cases hx
  · rw [InScope.of_node (by intro l h; cases h)]
    exact ⟨1, by simp [mixNet, Net.ch], (mixNet_scope1 1).2 (Or.inr rfl)⟩

/-- Restricting to discrete leaves is necessary: the density of a Gaussian can exceed one, so observing its variable can raise the value. -/
theorem C78_gaussian_refuted : ∃ (N : Net Unit XR) (I J : VarSet) (a b : ℝ), Acyclic N.ch ∧ Extends N () I J ∧ N.value I () = some (.fin a) ∧
    N.value J () = some (.fin b) ∧ a < b := by
  have hac : Acyclic (⟨fun _ => .leaf (.gaussian 0 (.fin 0) (.fin (1 / 10)))⟩ : Net Unit XR).ch := ⟨fun _ => 0, by simp [Net.ch]⟩
  refine ⟨⟨fun _ => .leaf (.gaussian 0 (.fin 0) (.fin (1 / 10)))⟩, fun _ => none, VarSet.single 0 0, 0,
    -Real.log (1 / 10) - Real.log (2 * Real.pi) / 2, hac, ?_, ?_, ?_, ?_⟩
  · intro v _ x hx; cases hx
  · rw [Net.value_unfold hac]; simp [Net.valueStep, Leaf.value]
  · rw [Net.value_unfold hac]
    have hn : GoFloat.normLogProb (XR.fin 0) (.fin (1 / 10)) (ofInt 0) = .fin (-Real.log (1 / 10) - Real.log (2 * Real.pi) / 2) := by
      show XR.normLogProb _ _ (.fin ((0 : Int) : ℝ)) = _
      rw [XR.normLogProb, XR.log_pos (by norm_num : (0 : ℝ) < 1 / 10)]
      norm_num [XR.sub, XR.add, XR.neg, XR.mul, XR.div]
      ring
    have he : GoFloat.eq (XR.fin (1 / 10)) (ofInt 0) = false := by simp [XR.eq]
    simp only [Net.valueStep, Leaf.value, VarSet.single, if_true]
    rw [he, hn]; rfl
  · have h1 : Real.log (2 * Real.pi) ≤ Real.log 10 := Real.log_le_log (by positivity) (by have := Real.pi_le_four; linarith)
    have h2 : Real.log (1 / 10) = -Real.log 10 := by rw [one_div, Real.log_inv]
    have h3 : 0 < Real.log 10 := Real.log_pos (by norm_num)
    rw [h2]; linarith

end Gospn
