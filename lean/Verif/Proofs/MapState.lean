import Verif.Proofs.Marginal
import Verif.Proofs.ArgMax
set_option linter.unusedSectionVars false
/-
MAP values in exact arithmetic, and the states that attain them.
-/
namespace Gospn
open Spec GoFloat

variable {ι : Type} [Fintype ι]

theorem weightedMax_spec : ∀ (vs : List XR) (r : List ℝ), r.length = vs.length → (∀ v ∈ vs, IsLogProb v) → (∀ x ∈ r, 0 ≤ x) →
    ∃ us, weightedMax vs (r.map XR.fin) = some us ∧ us.length = vs.length ∧ (∀ u ∈ us, IsLogProb u) ∧ us.map unlog = List.zipWith (· * ·) r (vs.map unlog) := by
  intro vs
  induction vs with
  | nil => intro r hr _ _; simp at hr; subst hr; exact ⟨[], rfl, rfl, by simp, rfl⟩
  | cons v vs ih =>
    intro r hr hv hx
    cases r with
    | nil => simp at hr
    | cons a r =>
      obtain ⟨us, h1, h2, h3, h4⟩ := ih r (by simpa using hr) (fun u hu => hv u (by simp [hu])) (fun x hx' => hx x (by simp [hx']))
      have hl := log_nonneg_spec (hx a (by simp))
      have ha := add_spec hl.1 (hv v (by simp))
      refine ⟨XR.add (XR.log (.fin a)) v :: us, by simp [weightedMax, h1], by simp [h2], ?_, ?_⟩
      · intro u hu
        rcases List.mem_cons.1 hu with rfl | hu
        · exact ha.1
        · exact h3 u hu
      · simp [h4, ha.2, hl.2]

theorem maxCompute_spec (us : List XR) (h : ∀ u ∈ us, IsLogProb u) :
    IsLogProb (maxCompute us) ∧ (maxCompute us = .ninf ∨ maxCompute us ∈ us) ∧ ∀ u ∈ us, unlog u ≤ unlog (maxCompute us) := by
  have := foldl_max_spec us .ninf trivial h
  exact ⟨this.1, this.2.1, this.2.2.2⟩

/-- The MAP probability (density) of a node. -/
noncomputable def Net.pmax (N : Net ι XR) (I : VarSet) (n : ι) : ℝ := ((N.max I n).map unlog).getD 0

/-- Every leaf below `S` has a MAP value under `I` (none panics). -/
def LeavesMax (N : Net ι XR) (S : ι) (I : VarSet) : Prop :=
  ∀ n l, Reach N.ch S n → N.kind n = .leaf l → ∃ x, l.max I = some x ∧ IsLogProb x

theorem Net.max_ok {N : Net ι XR} (hac : Acyclic N.ch) {S : ι} {I : VarSet} (hw : NonnegWeights N S) (hl : LeavesMax N S I) :
    ∀ n, Reach N.ch S n → ∃ x, N.max I n = some x ∧ IsLogProb x := by
  obtain ⟨rank, hr⟩ := id hac
  intro n
  induction hn : rank n using Nat.strong_induction_on generalizing n with
  | _ k ih =>
    intro hreach
    have ihc : ∀ c ∈ N.ch n, ∃ x, N.max I c = some x ∧ IsLogProb x := fun c hc =>
      ih (rank c) (by rw [← hn]; exact hr n c hc) c rfl (Relation.ReflTransGen.tail hreach hc)
    choose! g hg using ihc
    rw [Net.max_unfold hac]
    unfold Net.maxStep
    cases hk : N.kind n with
    | leaf l => exact hl n l hreach hk
    | product cs =>
      have hcs : N.ch n = cs := by simp [Net.ch, hk]
      simp only [mapM_eq_some (fun c hc => (hg c (hcs ▸ hc)).1), Option.map_some]
      exact ⟨_, rfl, (prodCompute_spec _ (by intro v hv; obtain ⟨c, hc, rfl⟩ := List.mem_map.1 hv; exact (hg c (hcs ▸ hc)).2)).1⟩
    | sum cs w =>
      have hcs : N.ch n = cs := by simp [Net.ch, hk]
      obtain ⟨hne, r, rfl, h1, h2⟩ := hw n hreach cs w hk
      simp only [mapM_eq_some (fun c hc => (hg c (hcs ▸ hc)).1), Option.bind_some]
      obtain ⟨us, h3, h4, h5, _⟩ := weightedMax_spec (cs.map g) r (by simpa using h1)
        (by intro v hv; obtain ⟨c, hc, rfl⟩ := List.mem_map.1 hv; exact (hg c (hcs ▸ hc)).2) h2
      rw [h3]
      exact ⟨_, rfl, (maxCompute_spec us h5).1⟩

/-- What `Max` is at a sum node: `us` are the weighted values of the children. -/
theorem Net.max_sum {N : Net ι XR} (hac : Acyclic N.ch) {S : ι} {I : VarSet} (hw : NonnegWeights N S) (hl : LeavesMax N S I) {n : ι}
    (hreach : Reach N.ch S n) {cs : List ι} {r : List ℝ} (hk : N.kind n = .sum cs (r.map XR.fin)) :
    ∃ g : ι → XR, ∃ us, (∀ c ∈ cs, N.max I c = some (g c) ∧ IsLogProb (g c) ∧ unlog (g c) = N.pmax I c) ∧ weightedMax (cs.map g) (r.map XR.fin) = some us ∧
      us.length = cs.length ∧ (∀ u ∈ us, IsLogProb u) ∧ us.map unlog = List.zipWith (· * ·) r (cs.map (N.pmax I)) ∧ N.max I n = some (maxCompute us) ∧
      r.length = cs.length ∧ (∀ x ∈ r, 0 ≤ x) := by
  have hv := Net.max_ok hac hw hl
  have hcs : N.ch n = cs := by simp [Net.ch, hk]
  have hpc : ∀ c ∈ cs, ∃ y, N.max I c = some y ∧ IsLogProb y := fun c hc => hv c (Relation.ReflTransGen.tail hreach (hcs ▸ hc : c ∈ N.ch n))
  choose! g hg using hpc
  have hpg : ∀ c ∈ cs, unlog (g c) = N.pmax I c := fun c hc => by simp [Net.pmax, (hg c hc).1]
  obtain ⟨hne, r', hrr, h1, h2⟩ := hw n hreach cs _ hk
  have : r = r' := List.map_injective_iff.2 (fun a b h => by simpa using h) hrr
  subst this
  obtain ⟨us, h3, h4, h5, h6⟩ := weightedMax_spec (cs.map g) r (by simpa using h1)
      (by intro v hv; obtain ⟨c, hc, rfl⟩ := List.mem_map.1 hv; exact (hg c hc).2) h2
  refine ⟨g, us, fun c hc => ⟨(hg c hc).1, (hg c hc).2, hpg c hc⟩, h3, by simpa using h4, h5, ?_, ?_, h1, h2⟩
  · rw [h6, List.map_map]; congr 1; exact List.map_congr_left (fun c hc => hpg c hc)
  · rw [Net.max_unfold hac]
    simp only [Net.maxStep, hk, mapM_eq_some (fun c hc => (hg c hc).1), Option.bind_some, h3, Option.map_some]

theorem Net.max_product {N : Net ι XR} (hac : Acyclic N.ch) {S : ι} {I : VarSet} (hw : NonnegWeights N S) (hl : LeavesMax N S I) {n : ι}
    (hreach : Reach N.ch S n) {cs : List ι} (hk : N.kind n = .product cs) : N.pmax I n = (cs.map (N.pmax I)).prod := by
  have hv := Net.max_ok hac hw hl
  have hcs : N.ch n = cs := by simp [Net.ch, hk]
  have hpc : ∀ c ∈ cs, ∃ y, N.max I c = some y ∧ IsLogProb y := fun c hc => hv c (Relation.ReflTransGen.tail hreach (hcs ▸ hc : c ∈ N.ch n))
  choose! g hg using hpc
  have hpg : ∀ c ∈ cs, unlog (g c) = N.pmax I c := fun c hc => by simp [Net.pmax, (hg c hc).1]
  have hx : N.max I n = some (prodCompute (cs.map g)) := by
    rw [Net.max_unfold hac]
    simp only [Net.maxStep, hk, mapM_eq_some (fun c hc => (hg c hc).1), Option.map_some]
  unfold Net.pmax at *
  rw [hx]
  simp only [Option.map_some, Option.getD_some]
  rw [(prodCompute_spec _ (by intro v hv; obtain ⟨c, hc, rfl⟩ := List.mem_map.1 hv; exact (hg c hc).2)).2, List.map_map]
  congr 1
  exact List.map_congr_left (fun c hc => hpg c hc)

theorem Net.pmax_nonneg (N : Net ι XR) (I : VarSet) (n : ι) : 0 ≤ N.pmax I n := by
  unfold Net.pmax
  cases N.max I n with
  | none => simp
  | some x => simpa using unlog_nonneg x

theorem Net.pmax_some {N : Net ι XR} {I : VarSet} {n : ι} {x : XR} (h : N.max I n = some x) : N.pmax I n = unlog x := by simp [Net.pmax, h]

theorem Net.max_of_pmax {N : Net ι XR} {I : VarSet} {n : ι} {x : XR} (h : ∃ y, N.max I n = some y ∧ IsLogProb y) (hx : IsLogProb x)
    (he : N.pmax I n = unlog x) : N.max I n = some x := by
  obtain ⟨y, h1, h2⟩ := h
  rw [Net.pmax_some h1] at he
  rw [h1, unlog_inj h2 hx he]

/-! ### Leaves -/

theorem leaf_max_ok {dom : Int → Set Int} {l : Leaf XR} (hl : MaxLeaf dom l) {I : VarSet} (hI : ∀ x, I (leafVar l) = some x → x ∈ dom (leafVar l)) :
    ∃ x, l.max I = some x ∧ IsLogProb x := by
  cases l with
  | indicator v x =>
    simp only [Leaf.max]
    cases I v with
    | none => exact ⟨_, rfl, trivial⟩
    | some u => by_cases h : u = x <;> simp [h]
  | gaussian v mu sigma =>
    obtain ⟨m, s, rfl, rfl, hs⟩ := hl
    have he : (GoFloat.eq (XR.fin s) (ofInt 0)) = false := by simp [XR.eq, hs.ne']
    simp only [Leaf.max, he, Bool.false_eq_true, if_false]
    have h2 : (2 * s * s) ≠ 0 := by positivity
    cases I v <;> simp [XR.normLogProb, XR.log_pos hs, XR.mul, XR.div, hs.ne']
  | multinomial sc v pr mi mv =>
    obtain ⟨q, k, m, rfl, h1, rfl, h2, rfl, h3, h4, h5⟩ := hl
    simp only [Leaf.max]
    cases hIv : I v with
    | none => exact ⟨_, rfl, (log_nonneg_spec (h1 m (List.mem_of_getElem? h2))).1⟩
    | some u =>
      obtain ⟨h6, h7⟩ := h5 u (hI u hIv)
      obtain ⟨p, h8, h9⟩ := goIdx_map_fin q u h6 h7
      simp only [h9, Option.map_some]
      exact ⟨_, rfl, (log_nonneg_spec (h1 p (List.mem_of_getElem? h8))).1⟩

theorem leaves_max {N : Net ι XR} {S : ι} {dom : Int → Set Int} (hl : ∀ n l, Reach N.ch S n → N.kind n = .leaf l → MaxLeaf dom l) {I : VarSet}
    (hI : InDomain N S dom I) : LeavesMax N S I :=
  fun n l hn hk => leaf_max_ok (hl n l hn hk) (fun x hx => hI _ ⟨n, l, hn, hk, rfl⟩ x hx)

/-- More evidence does not increase the MAP value of a leaf. -/
theorem leaf_max_mono {dom : Int → Set Int} {l : Leaf XR} (hl : MaxLeaf dom l) {I J : VarSet}
    (hJ : ∀ x, J (leafVar l) = some x → x ∈ dom (leafVar l)) (hIJ : ∀ x, I (leafVar l) = some x → J (leafVar l) = some x) :
    unlog ((l.max J).getD .nan) ≤ unlog ((l.max I).getD .nan) := by
  cases hI : I (leafVar l) with
  | some x =>
    rw [l.max_var (I := J) (J := I) (by rw [hI, hIJ x hI])]
  | none =>
    cases hJv : J (leafVar l) with
    | none => rw [l.max_var (I := J) (J := I) (by rw [hI, hJv])]
    | some x =>
      cases l with
      | indicator v y =>
        simp only [leafVar] at hI hJv
        simp only [Leaf.max, hI, hJv]
        by_cases h : x = y <;> simp [h]
      | multinomial sc v pr mi mv =>
        simp only [leafVar] at hI hJv hJ
        obtain ⟨q, k, m, rfl, h1, rfl, h2, rfl, h3, h4, h5⟩ := hl
        obtain ⟨h6, h7⟩ := h5 x (hJ x hJv)
        obtain ⟨p, h8, h9⟩ := goIdx_map_fin q x h6 h7
        simp only [Leaf.max, hI, hJv, h9, Option.map_some, Option.getD_some]
        have e1 := (log_nonneg_spec (h1 m (List.mem_of_getElem? h2))).2
        have e2 := (log_nonneg_spec (h1 p (List.mem_of_getElem? h8))).2
        rw [show (GoFloat.log (XR.fin m) : XR) = XR.log (.fin m) from rfl, show (GoFloat.log (XR.fin p) : XR) = XR.log (.fin p) from rfl, e1, e2]
        exact h3 p (List.mem_of_getElem? h8)
      | gaussian v mu sigma =>
        simp only [leafVar] at hI hJv
        obtain ⟨m, s, rfl, rfl, hs⟩ := hl
        have he : (GoFloat.eq (XR.fin s) (ofInt 0)) = false := by simp [XR.eq, hs.ne']
        simp only [Leaf.max, he, Bool.false_eq_true, if_false, hI, hJv, Option.getD_some]
        simp only [XR.g_ofInt, XR.g_normLogProb, XR.normLogProb, XR.log_pos hs, XR.sub, XR.neg, XR.add, XR.mul, XR.div]
        have h2 : (2 * s * s) ≠ 0 := by positivity
        simp only [h2, if_false, unlog]
        apply Real.exp_le_exp.2
        have : 0 ≤ ((x : ℝ) + -m) * ((x : ℝ) + -m) / (2 * s * s) := div_nonneg (mul_self_nonneg _) (by positivity)
        simp only [add_neg_cancel, mul_zero, zero_div, neg_zero, add_zero]
        linarith

/-- The value `ArgMax` of a leaf reports. -/
theorem leaf_argMax_spec {dom : Int → Set Int} {l : Leaf XR} (hl : MaxLeaf dom l) {I : VarSet} (hm : ModeLeaf dom I l)
    (hI : ∀ x, I (leafVar l) = some x → x ∈ dom (leafVar l)) {a : ℝ} (hmax : l.max I = some (.fin a)) :
    ∃ x, l.argMax I = some (VarSet.single (leafVar l) x, .fin a) ∧ (∀ y, I (leafVar l) = some y → y = x) ∧ x ∈ dom (leafVar l) ∧
      ∀ J : VarSet, J (leafVar l) = some x → l.max J = some (.fin a) := by
  cases l with
  | indicator v y =>
    simp only [leafVar] at hI ⊢
    simp only [Leaf.max, Leaf.argMax, ModeLeaf] at hmax hm ⊢
    cases hIv : I v with
    | none =>
      rw [hIv] at hm hmax
      obtain ⟨rfl, h0⟩ := hm.resolve_left (by simp)
      simp only [Option.some.injEq] at hmax
      exact ⟨0, by rw [← hmax], by simp, h0, fun J hJ => by rw [hJ]; simp [← hmax]⟩
    | some u =>
      rw [hIv] at hmax
      by_cases h : u = y
      · subst h
        simp only [if_true, Option.some.injEq] at hmax
        exact ⟨u, by simp [hmax], by simp, hI u hIv, fun J hJ => by rw [hJ]; simp [← hmax]⟩
      · simp [h] at hmax
  | multinomial sc v pr mi mv =>
    simp only [leafVar] at hI ⊢
    obtain ⟨q, k, m, rfl, h1, rfl, h2, rfl, h3, h4, h5⟩ := hl
    simp only [Leaf.max, Leaf.argMax] at hmax ⊢
    cases hIv : I v with
    | none =>
      rw [hIv] at hmax
      simp only [Option.some.injEq] at hmax
      refine ⟨k, by rw [hmax], by simp, h4, fun J hJ => ?_⟩
      rw [hJ]
      have : goIdx (q.map XR.fin) (k : Int) = some (.fin m) := by simp [goIdx, h2]
      simp [this, ← hmax]
    | some u =>
      rw [hIv] at hmax
      simp only at hmax
      obtain ⟨h6, h7⟩ := h5 u (hI u hIv)
      obtain ⟨p, h8, h9⟩ := goIdx_map_fin q u h6 h7
      rw [h9] at hmax
      simp only [Option.map_some, Option.some.injEq] at hmax
      exact ⟨u, by simp [h9, ← hmax], by simp, hI u hIv, fun J hJ => by rw [hJ]; simp [h9, ← hmax]⟩
  | gaussian v mu sigma =>
    simp only [leafVar] at hI ⊢
    obtain ⟨m, s, rfl, rfl, hs⟩ := hl
    have he : (GoFloat.eq (XR.fin s) (ofInt 0)) = false := by simp [XR.eq, hs.ne']
    simp only [Leaf.max, Leaf.argMax, ModeLeaf, he, Bool.false_eq_true, if_false] at hmax hm ⊢
    cases hIv : I v with
    | none =>
      rw [hIv] at hm hmax
      obtain ⟨k, hk, hmk⟩ := hm.resolve_left (by simp)
      have hmk : m = (k : ℝ) := by simpa using hmk
      subst hmk
      simp only [Option.some.injEq] at hmax
      have hround : (GoFloat.toInt (GoFloat.round (XR.fin (k : ℝ)) : XR)) = k := by
        show XR.toInt (XR.round (.fin k)) = k
        have e1 : ⌊(k : ℝ) + 1 / 2⌋ = k := by rw [Int.floor_eq_iff]; constructor <;> linarith
        have e2 : ⌈(k : ℝ) - 1 / 2⌉ = k := by rw [Int.ceil_eq_iff]; constructor <;> linarith
        have : XR.round (.fin (k : ℝ)) = .fin (k : ℝ) := by
          simp only [XR.round, e1, e2, ite_self]
        rw [this]; simp [XR.toInt]
      refine ⟨k, by rw [hround, hmax], by simp, hk, fun J hJ => ?_⟩
      rw [hJ, ← hmax]; simp
    | some u =>
      rw [hIv] at hmax
      simp only [Option.some.injEq] at hmax
      exact ⟨u, by simp only [hmax], by simp, hI u hIv, fun J hJ => by rw [hJ]; simp only [hmax]⟩

/-! ### More evidence does not increase the MAP value -/

theorem prod_le_prod_of {α : Type} (f g : α → ℝ) (l : List α) (h : ∀ a ∈ l, 0 ≤ f a ∧ f a ≤ g a) : 0 ≤ (l.map f).prod ∧ (l.map f).prod ≤ (l.map g).prod := by
  induction l with
  | nil => simp
  | cons a l ih =>
    have h1 := h a (by simp)
    have h2 := ih (fun b hb => h b (by simp [hb]))
    simp only [List.map_cons, List.prod_cons]
    exact ⟨mul_nonneg h1.1 h2.1, mul_le_mul h1.2 h2.2 h2.1 (h1.1.trans h1.2)⟩

theorem Net.pmax_mono {N : Net ι XR} (hac : Acyclic N.ch) {S : ι} {dom : Int → Set Int} (hw : NonnegWeights N S)
    (hl : ∀ n l, Reach N.ch S n → N.kind n = .leaf l → MaxLeaf dom l) {I J : VarSet} (hI : InDomain N S dom I) (hJ : InDomain N S dom J) :
    ∀ n, Reach N.ch S n → Extends N n I J → N.pmax J n ≤ N.pmax I n := by
  obtain ⟨rank, hr⟩ := id hac
  have hmI := leaves_max hl hI
  have hmJ := leaves_max hl hJ
  intro n
  induction hn : rank n using Nat.strong_induction_on generalizing n with
  | _ k ih =>
    intro hreach hext
    have ihc : ∀ c ∈ N.ch n, N.pmax J c ≤ N.pmax I c := fun c hc =>
      ih (rank c) (by rw [← hn]; exact hr n c hc) c rfl (Relation.ReflTransGen.tail hreach hc) (fun v hv => hext v (InScope.child hc hv))
    cases hk : N.kind n with
    | leaf l =>
      have h1 : ∀ K, N.max K n = l.max K := fun K => by rw [Net.max_unfold hac]; simp [Net.maxStep, hk]
      obtain ⟨x, hx, _⟩ := hmI n l hreach hk
      obtain ⟨y, hy, _⟩ := hmJ n l hreach hk
      have := leaf_max_mono (hl n l hreach hk) (I := I) (J := J) (fun x hx => hJ _ ⟨n, l, hreach, hk, rfl⟩ x hx)
        (hext _ ((InScope.of_leaf hk).2 rfl))
      rw [hx, hy] at this
      rw [Net.pmax_some ((h1 J).trans hy), Net.pmax_some ((h1 I).trans hx)]
      simpa using this
    | product cs =>
      have hcs : N.ch n = cs := by simp [Net.ch, hk]
      rw [Net.max_product hac hw hmI hreach hk, Net.max_product hac hw hmJ hreach hk]
      exact (prod_le_prod_of _ _ cs (fun c hc => ⟨N.pmax_nonneg J c, ihc c (hcs ▸ hc)⟩)).2
    | sum cs w =>
      have hcs : N.ch n = cs := by simp [Net.ch, hk]
      obtain ⟨_, r, rfl, _, _⟩ := hw n hreach cs w hk
      obtain ⟨g, us, h1, h2, h3, h4, h5, h6, h7, h8⟩ := Net.max_sum hac hw hmI hreach hk
      obtain ⟨g', us', k1, k2, k3, k4, k5, k6, k7, k8⟩ := Net.max_sum hac hw hmJ hreach hk
      rw [Net.pmax_some h6, Net.pmax_some k6]
      rcases (maxCompute_spec us' k4).2.1 with h | h
      · rw [h]; simpa using unlog_nonneg _
      · obtain ⟨i, hi, he⟩ := List.getElem_of_mem h
        have hi1 : i < us.length := by omega
        have hi2 : i < cs.length := by omega
        have hi3 : i < r.length := by omega
        have e1 : unlog us'[i] = r[i] * N.pmax J cs[i] := by
          have := congrArg (fun l => l[i]?) k5
          simpa [List.getElem?_zipWith, hi, hi2, hi3] using this
        have e2 : unlog us[i] = r[i] * N.pmax I cs[i] := by
          have := congrArg (fun l => l[i]?) h5
          simpa [List.getElem?_zipWith, hi1, hi2, hi3] using this
        rw [← he, e1]
        refine (mul_le_mul_of_nonneg_left (ihc cs[i] (by rw [hcs]; exact List.getElem_mem hi2)) (h8 _ (List.getElem_mem hi3))).trans ?_
        rw [← e2]
        exact (maxCompute_spec us h4).2.2 _ (List.getElem_mem hi1)

end Gospn
