import Verif.Proofs.Spn
import Verif.Proofs.Log
import Verif.Spec.Spn
import Mathlib.Algebra.BigOperators.Ring.Finset
import Mathlib.Algebra.BigOperators.Intervals
set_option linter.unusedSectionVars false
/-
Values as probabilities, and marginalisation of one variable.
-/
namespace Gospn
open Spec GoFloat

section Scope
variable {ι F : Type} [Fintype ι]

theorem Leaf.value_var [GoFloat F] (l : Leaf F) {I J : VarSet} (h : I (leafVar l) = J (leafVar l)) : l.value I = l.value J := by
  cases l <;> simp only [leafVar] at h <;> simp [Leaf.value, h]

theorem Leaf.max_var [GoFloat F] (l : Leaf F) {I J : VarSet} (h : I (leafVar l) = J (leafVar l)) : l.max I = l.max J := by
  cases l <;> simp only [leafVar] at h <;> simp [Leaf.max, h]

theorem InScope.child {N : Net ι F} {n c : ι} (hc : c ∈ N.ch n) {v : Int} (h : InScope N c v) : InScope N n v := by
  obtain ⟨m, l, h1, h2, h3⟩ := h
  exact ⟨m, l, Relation.ReflTransGen.head hc h1, h2, h3⟩

theorem InScope.reach {N : Net ι F} {n c : ι} (hc : Reach N.ch n c) {v : Int} (h : InScope N c v) : InScope N n v := by
  obtain ⟨m, l, h1, h2, h3⟩ := h
  exact ⟨m, l, Relation.ReflTransGen.trans hc h1, h2, h3⟩

theorem InScope.inv {N : Net ι F} {n : ι} {v : Int} (h : InScope N n v) :
    (∃ l, N.kind n = .leaf l ∧ leafVar l = v) ∨ ∃ c ∈ N.ch n, InScope N c v := by
  obtain ⟨m, l, h1, h2, h3⟩ := h
  rcases Relation.ReflTransGen.cases_head h1 with rfl | ⟨c, hc, h1⟩
  · exact Or.inl ⟨l, h2, h3⟩
  · exact Or.inr ⟨c, hc, m, l, h1, h2, h3⟩

theorem InScope.of_leaf {N : Net ι F} {n : ι} {l : Leaf F} (h : N.kind n = .leaf l) {v : Int} : InScope N n v ↔ leafVar l = v := by
  constructor
  · intro hs
    rcases InScope.inv hs with ⟨l', h', hv⟩ | ⟨c, hc, _⟩
    · rw [h] at h'; cases h'; exact hv
    · simp [Net.ch, h] at hc
  · intro hv; exact ⟨n, l, Relation.ReflTransGen.refl, h, hv⟩

/-- A recursive method whose leaves look only at their own variable depends only on the scope. -/
theorem scope_congr {α : Type} {N : Net ι F} (hac : Acyclic N.ch) {f : VarSet → ι → α} {step : VarSet → (ι → α) → ι → α}
    (hun : ∀ I n, f I n = step I (f I) n) (hloc : ∀ I, LocalStep N.ch (step I))
    (hleaf : ∀ I J n g, (∀ l, N.kind n = .leaf l → I (leafVar l) = J (leafVar l)) → step I g n = step J g n) {I J : VarSet} :
    ∀ n, (∀ v, InScope N n v → I v = J v) → f I n = f J n := by
  obtain ⟨rank, hr⟩ := id hac
  intro n
  induction hn : rank n using Nat.strong_induction_on generalizing n with
  | _ k ih =>
    intro h
    rw [hun I, hun J, hleaf I J n _ (fun l hl => h _ ((InScope.of_leaf hl).2 rfl))]
    exact hloc J _ _ _ (fun c hc => ih (rank c) (by rw [← hn]; exact hr n c hc) c rfl (fun v hv => h v (InScope.child hc hv)))

theorem Net.value_congr [GoFloat F] {N : Net ι F} (hac : Acyclic N.ch) {I J : VarSet} {n : ι} (h : ∀ v, InScope N n v → I v = J v) :
    N.value I n = N.value J n :=
  scope_congr hac (fun I n => Net.value_unfold hac I n) (fun I => N.value_local I) (by
    intro I J n g h; unfold Net.valueStep
    cases hk : N.kind n with
    | leaf l => exact l.value_var (h l hk)
    | _ => rfl) n h

theorem Net.max_congr [GoFloat F] {N : Net ι F} (hac : Acyclic N.ch) {I J : VarSet} {n : ι} (h : ∀ v, InScope N n v → I v = J v) :
    N.max I n = N.max J n :=
  scope_congr hac (fun I n => Net.max_unfold hac I n) (fun I => N.max_local I) (by
    intro I J n g h; unfold Net.maxStep
    cases hk : N.kind n with
    | leaf l => exact l.max_var (h l hk)
    | _ => rfl) n h

theorem Spec.IsComplete.reach {N : Net ι F} {S n : ι} (h : IsComplete N S) (hn : Reach N.ch S n) : IsComplete N n :=
  fun m hm => h m (Relation.ReflTransGen.trans hn hm)

theorem inScope_finite (N : Net ι F) (S : ι) : {v | InScope N S v}.Finite := by
  have h : {v | InScope N S v} ⊆ Set.range (fun n => match N.kind n with | .leaf l => leafVar l | _ => 0) := by
    rintro v ⟨m, l, _, h2, h3⟩
    exact ⟨m, by simp [h2, h3]⟩
  exact (Set.finite_range _).subset h

end Scope

/-! ### Values as probabilities -/

/-- The weighted sum of a sum node. -/
noncomputable def wsum (r p : List ℝ) : ℝ := (List.zipWith (· * ·) r p).sum

@[simp] theorem wsum_nil : wsum [] [] = 0 := rfl
@[simp] theorem wsum_cons (a b : ℝ) (r p : List ℝ) : wsum (a :: r) (b :: p) = a * b + wsum r p := by simp [wsum]

theorem prodCompute_spec (vs : List XR) (h : ∀ v ∈ vs, IsLogProb v) :
    IsLogProb (prodCompute vs) ∧ unlog (prodCompute vs) = (vs.map unlog).prod := by
  unfold prodCompute
  have key : ∀ (vs : List XR) (a : XR), IsLogProb a → (∀ v ∈ vs, IsLogProb v) →
      IsLogProb (vs.foldl GoFloat.add a) ∧ unlog (vs.foldl GoFloat.add a) = unlog a * (vs.map unlog).prod := by
    intro vs
    induction vs with
    | nil => intro a ha _; simp [ha]
    | cons b vs ih =>
      intro a ha hv
      have h1 := add_spec ha (hv b (by simp))
      have h2 := ih (XR.add a b) h1.1 (fun v hv' => hv v (by simp [hv']))
      refine ⟨h2.1, ?_⟩
      have : unlog ((b :: vs).foldl GoFloat.add a) = unlog (XR.add a b) * (vs.map unlog).prod := h2.2
      rw [this, h1.2]; simp [mul_assoc]
  have := key vs (.fin 0) trivial h
  simpa using this

theorem weighted_spec : ∀ (vs : List XR) (r : List ℝ), r.length = vs.length → (∀ v ∈ vs, IsLogProb v) → (∀ x ∈ r, 0 ≤ x) →
    ∃ us, weighted vs (r.map XR.fin) = some us ∧ us.length = vs.length ∧ (∀ u ∈ us, IsLogProb u) ∧ us.map unlog = List.zipWith (· * ·) r (vs.map unlog) := by
  intro vs
  induction vs with
  | nil => intro r hr _ _; simp at hr; subst hr; exact ⟨[], rfl, rfl, by simp, rfl⟩
  | cons v vs ih =>
    intro r hr hv hx
    cases r with
    | nil => simp at hr
    | cons a r =>
      obtain ⟨us, h1, h2, h3, h4⟩ := ih r (by simpa using hr) (fun u hu => hv u (by simp [hu])) (fun x hx' => hx x (by simp [hx']))
      have hl := log_nonneg_spec (hx a (by simp))
      have ha := add_spec (hv v (by simp)) hl.1
      refine ⟨XR.add v (XR.log (.fin a)) :: us, by simp [weighted, h1], by simp [h2], ?_, ?_⟩
      · intro u hu
        rcases List.mem_cons.1 hu with rfl | hu
        · exact ha.1
        · exact h3 u hu
      · simp [h4, ha.2, hl.2, mul_comm]

instance : Inhabited XR := ⟨.nan⟩

variable {ι : Type} [Fintype ι]

/-- The probability a node has under evidence `I`: the exponential of its value. -/
noncomputable def Net.prob (N : Net ι XR) (I : VarSet) (n : ι) : ℝ := ((N.value I n).map unlog).getD 0

/-- Every leaf below `S` has a log-probability under `I` (none panics). -/
def LeavesEval (N : Net ι XR) (S : ι) (I : VarSet) : Prop :=
  ∀ n l, Reach N.ch S n → N.kind n = .leaf l → ∃ x, l.value I = some x ∧ IsLogProb x

theorem Net.value_ok {N : Net ι XR} (hac : Acyclic N.ch) {S : ι} {I : VarSet} (hw : NonnegWeights N S) (hl : LeavesEval N S I) :
    ∀ n, Reach N.ch S n → ∃ x, N.value I n = some x ∧ IsLogProb x := by
  obtain ⟨rank, hr⟩ := id hac
  intro n
  induction hn : rank n using Nat.strong_induction_on generalizing n with
  | _ k ih =>
    intro hreach
    have ihc : ∀ c ∈ N.ch n, ∃ x, N.value I c = some x ∧ IsLogProb x := fun c hc =>
      ih (rank c) (by rw [← hn]; exact hr n c hc) c rfl (Relation.ReflTransGen.tail hreach hc)
    choose! g hg using ihc
    rw [Net.value_unfold hac]
    unfold Net.valueStep
    cases hk : N.kind n with
    | leaf l => exact hl n l hreach hk
    | product cs =>
      have hcs : N.ch n = cs := by simp [Net.ch, hk]
      simp only [mapM_eq_some (fun c hc => (hg c (hcs ▸ hc)).1), Option.map_some]
      exact ⟨_, rfl, (prodCompute_spec _ (by intro v hv; obtain ⟨c, hc, rfl⟩ := List.mem_map.1 hv; exact (hg c (hcs ▸ hc)).2)).1⟩
    | sum cs w =>
      have hcs : N.ch n = cs := by simp [Net.ch, hk]
      obtain ⟨hne, r, rfl, h1, h2⟩ := hw n hreach cs w hk
      simp only [mapM_eq_some (fun c hc => (hg c (hcs ▸ hc)).1), Option.bind_some]
      obtain ⟨us, h3, h4, h5, _⟩ := weighted_spec (cs.map g) r (by simpa using h1)
        (by intro v hv; obtain ⟨c, hc, rfl⟩ := List.mem_map.1 hv; exact (hg c (hcs ▸ hc)).2) h2
      rw [h3]
      obtain ⟨x, h6, h7, _⟩ := logSumExp_spec (l := us) (by intro h; subst h; exact hne (List.length_eq_zero_iff.1 (by simpa using h4.symm))) h5
      exact ⟨x, h6, h7⟩

theorem Net.prob_spec {N : Net ι XR} (hac : Acyclic N.ch) {S : ι} {I : VarSet} (hw : NonnegWeights N S) (hl : LeavesEval N S I) {n : ι}
    (hreach : Reach N.ch S n) :
    (∃ x, N.value I n = some x ∧ IsLogProb x ∧ unlog x = N.prob I n) ∧
    (∀ cs, N.kind n = .product cs → N.prob I n = (cs.map (N.prob I)).prod) ∧
    (∀ cs r, N.kind n = .sum cs (r.map XR.fin) → N.prob I n = wsum r (cs.map (N.prob I))) := by
  have hv := Net.value_ok hac hw hl
  obtain ⟨x, hx, hxl⟩ := hv n hreach
  have hpc : ∀ c ∈ N.ch n, ∃ y, N.value I c = some y ∧ IsLogProb y := fun c hc => hv c (Relation.ReflTransGen.tail hreach hc)
  choose! g hg using hpc
  have hpg : ∀ c ∈ N.ch n, N.prob I c = unlog (g c) := fun c hc => by simp [Net.prob, (hg c hc).1]
  refine ⟨⟨x, hx, hxl, by simp [Net.prob, hx]⟩, ?_, ?_⟩
  · intro cs hk
    have hcs : N.ch n = cs := by simp [Net.ch, hk]
    rw [hcs] at hg hpg
    have hpx : N.prob I n = unlog x := by simp [Net.prob, hx]
    rw [Net.value_unfold hac] at hx
    simp only [Net.valueStep, hk, mapM_eq_some (fun c hc => (hg c hc).1), Option.map_some, Option.some.injEq] at hx
    rw [hpx, ← hx, (prodCompute_spec _ (by intro v hv; obtain ⟨c, hc, rfl⟩ := List.mem_map.1 hv; exact (hg c hc).2)).2, List.map_map]
    congr 1
    exact List.map_congr_left (fun c hc => (hpg c hc).symm)
  · intro cs r hk
    have hcs : N.ch n = cs := by simp [Net.ch, hk]
    rw [hcs] at hg hpg
    have hpx : N.prob I n = unlog x := by simp [Net.prob, hx]
    obtain ⟨hne, r', hrr, h1, h2⟩ := hw n hreach cs _ hk
    have : r = r' := List.map_injective_iff.2 (fun a b h => by simpa using h) hrr
    subst this
    obtain ⟨us, h3, h4, h5, h6⟩ := weighted_spec (cs.map g) r (by simpa using h1)
        (by intro v hv; obtain ⟨c, hc, rfl⟩ := List.mem_map.1 hv; exact (hg c hc).2) h2
    obtain ⟨y, h7, h8, h9⟩ := logSumExp_spec (l := us) (by intro h; subst h; exact hne (List.length_eq_zero_iff.1 (by simpa using h4.symm))) h5
    rw [Net.value_unfold hac] at hx
    simp only [Net.valueStep, hk, mapM_eq_some (fun c hc => (hg c hc).1), Option.bind_some, h3, h7, Option.some.injEq] at hx
    rw [hpx, ← hx, h9, h6, List.map_map, wsum]
    congr 2
    exact List.map_congr_left (fun c hc => (hpg c hc).symm)

theorem Net.prob_congr {N : Net ι XR} (hac : Acyclic N.ch) {I J : VarSet} {n : ι} (h : ∀ v, InScope N n v → I v = J v) : N.prob I n = N.prob J n := by
  unfold Net.prob; rw [Net.value_congr hac h]

/-! ### Marginalising one variable -/

theorem wsum_sum {κ : Type} (s : Finset κ) (g : κ → ι → ℝ) (r : List ℝ) (cs : List ι) :
    wsum r (cs.map (fun c => ∑ x ∈ s, g x c)) = ∑ x ∈ s, wsum r (cs.map (g x)) := by
  induction cs generalizing r with
  | nil => cases r <;> simp [wsum]
  | cons c cs ih =>
    cases r with
    | nil => simp [wsum]
    | cons a r => simp only [List.map_cons, wsum_cons, ih, Finset.sum_add_distrib, Finset.mul_sum]

theorem wsum_const (r : List ℝ) (cs : List ι) (a : ℝ) (h : r.length = cs.length) : wsum r (cs.map (fun _ => a)) = r.sum * a := by
  induction cs generalizing r with
  | nil => simp at h; subst h; simp
  | cons c cs ih =>
    cases r with
    | nil => simp at h
    | cons b r => simp only [List.map_cons, wsum_cons, ih r (by simpa using h), List.sum_cons]; ring

theorem prod_sum_one {κ : Type} (s : Finset κ) (P : ι → Prop) (f : ι → ℝ) (g : κ → ι → ℝ) : ∀ (cs : List ι),
    cs.Pairwise (fun c d => ¬ (P c ∧ P d)) → (∃ c ∈ cs, P c) → (∀ c ∈ cs, P c → f c = ∑ x ∈ s, g x c) →
    (∀ c ∈ cs, ¬ P c → ∀ x ∈ s, g x c = f c) → (cs.map f).prod = ∑ x ∈ s, (cs.map (g x)).prod := by
  intro cs
  induction cs with
  | nil => intro _ h; simp at h
  | cons c cs ih =>
    intro hp hex h1 h2
    rw [List.pairwise_cons] at hp
    simp only [List.map_cons, List.prod_cons]
    by_cases hc : P c
    · have htail : ∀ x ∈ s, (cs.map (g x)).prod = (cs.map f).prod := by
        intro x hx; congr 1
        exact List.map_congr_left (fun d hd => h2 d (by simp [hd]) (fun hd' => hp.1 d hd ⟨hc, hd'⟩) x hx)
      rw [h1 c (by simp) hc, Finset.sum_mul]
      exact Finset.sum_congr rfl (fun x hx => by rw [htail x hx])
    · rw [ih hp.2 (by obtain ⟨d, hd, hd'⟩ := hex; rcases List.mem_cons.1 hd with rfl | hd; exact absurd hd' hc; exact ⟨d, hd, hd'⟩)
        (fun d hd => h1 d (by simp [hd])) (fun d hd => h2 d (by simp [hd])), Finset.mul_sum]
      exact Finset.sum_congr rfl (fun x hx => by rw [h2 c (by simp) hc x hx])

theorem Spec.DistWeights.nonneg {N : Net ι XR} {S : ι} (h : DistWeights N S) : NonnegWeights N S := by
  intro n hn cs w hk
  obtain ⟨r, h1, h2, h3, h4⟩ := h n hn cs w hk
  refine ⟨?_, r, h1, h2, h3⟩
  rintro rfl; simp at h2; subst h2; simp at h4

theorem goIdx_map_fin (q : List ℝ) (x : Int) (h0 : 0 ≤ x) (h1 : x < q.length) :
    ∃ p, q[x.toNat]? = some p ∧ goIdx (q.map XR.fin) x = some (.fin p) := by
  have hx : x.toNat < q.length := by omega
  refine ⟨q[x.toNat], List.getElem?_eq_getElem hx, ?_⟩
  simp [goIdx, Int.not_lt.2 h0, hx]

theorem discrete_eval {N : Net ι XR} {S : ι} {dom : Int → Finset Int} {I : VarSet} (hl : DiscreteLeaves N S dom) (hI : InDomain N S (fun v => ↑(dom v)) I) :
    LeavesEval N S I := by
  intro n l hn hk
  have hd := hl n l hn hk
  have hsc : InScope N S (leafVar l) := ⟨n, l, hn, hk, rfl⟩
  cases l with
  | indicator v x =>
    simp only [Leaf.value]
    cases I v with
    | none => exact ⟨_, rfl, trivial⟩
    | some u => by_cases h : u = x <;> simp [h]
  | gaussian v m s => exact absurd hd id
  | multinomial sc v pr mi mv =>
    obtain ⟨q, rfl, h1, h2, h3⟩ := hd
    simp only [Leaf.value]
    cases hIv : I v with
    | none => exact ⟨_, rfl, trivial⟩
    | some u =>
      obtain ⟨h4, h5⟩ := (h3 u).1 (hI v hsc u hIv)
      obtain ⟨p, h6, h7⟩ := goIdx_map_fin q u h4 h5
      simp only [h7, Option.map_some]
      exact ⟨_, rfl, (log_nonneg_spec (h1 p (List.mem_of_getElem? h6))).1⟩

/-- Summing a list through its indexes as integers. -/
theorem sum_dom_list (q : List ℝ) (D : Finset Int) (hD : ∀ x, x ∈ D ↔ 0 ≤ x ∧ x < q.length) :
    ∑ x ∈ D, q.getD x.toNat 0 = q.sum := by
  have : D = (Finset.range q.length).map ⟨(fun n : ℕ => (n : ℤ)), Nat.cast_injective⟩ := by
    ext x; simp only [hD, Finset.mem_map, Finset.mem_range, Function.Embedding.coeFn_mk]
    constructor
    · rintro ⟨h1, h2⟩; exact ⟨x.toNat, by omega, by omega⟩
    · rintro ⟨n, h1, rfl⟩; omega
  rw [this, Finset.sum_map]
  simp only [Function.Embedding.coeFn_mk, Int.toNat_natCast]
  rw [Finset.sum_range, ← List.sum_ofFn]
  congr 1
  apply List.ext_getElem <;> simp

/-- Marginalising one variable at a leaf. -/
theorem leaf_marginal {dom : Int → Finset Int} {l : Leaf XR} (hd : DiscreteLeaf dom l) {I : VarSet} (hv : I (leafVar l) = none) :
    unlog ((l.value I).getD .nan) = ∑ x ∈ dom (leafVar l), unlog ((l.value (Function.update I (leafVar l) (some x))).getD .nan) := by
  cases l with
  | indicator v x =>
    simp only [leafVar] at hv ⊢
    simp only [Leaf.value, hv, Function.update_self]
    have hd : x ∈ dom v := hd
    rw [Finset.sum_eq_single x]
    · simp
    · intro y _ hy; simp [hy]
    · intro h; exact absurd hd h
  | gaussian v m s => exact absurd hd id
  | multinomial sc v pr mi mv =>
    obtain ⟨q, rfl, h1, h2, h3⟩ := hd
    simp only [leafVar] at hv ⊢
    simp only [Leaf.value, hv, Function.update_self]
    have : ∀ x ∈ dom v, unlog (((goIdx (q.map XR.fin) x).map log).getD .nan) = q.getD x.toNat 0 := by
      intro x hx
      obtain ⟨h4, h5⟩ := (h3 x).1 hx
      obtain ⟨p, h6, h7⟩ := goIdx_map_fin q x h4 h5
      simp only [h7, Option.map_some, Option.getD_some, List.getD_eq_getElem?_getD, h6]
      exact (log_nonneg_spec (h1 p (List.mem_of_getElem? h6))).2
    rw [Finset.sum_congr rfl this, sum_dom_list q _ h3, h2]; simp

theorem Spec.InDomain.update {N : Net ι XR} {S : ι} {dom : Int → Finset Int} {I : VarSet} (hI : InDomain N S (fun v => ↑(dom v)) I) {v x : Int} (hx : x ∈ dom v) :
    InDomain N S (fun v => ↑(dom v)) (Function.update I v (some x)) := by
  intro u hu y hy
  by_cases h : u = v
  · subst h; simp at hy; subst hy; exact hx
  · rw [Function.update_of_ne h] at hy; exact hI u hu y hy

theorem Net.prob_marginal {N : Net ι XR} (hac : Acyclic N.ch) {S : ι} {dom : Int → Finset Int} (hcomp : IsComplete N S) (hdec : IsDecomposable N S)
    (hw : NonnegWeights N S) (hl : DiscreteLeaves N S dom) {I : VarSet} (hI : InDomain N S (fun v => ↑(dom v)) I) {v : Int} (hv : I v = none) :
    ∀ n, Reach N.ch S n → InScope N n v → N.prob I n = ∑ x ∈ dom v, N.prob (Function.update I v (some x)) n := by
  obtain ⟨rank, hr⟩ := id hac
  intro n
  induction hn : rank n using Nat.strong_induction_on generalizing n with
  | _ k ih =>
    intro hreach hsc
    have ihc : ∀ c ∈ N.ch n, InScope N c v → N.prob I c = ∑ x ∈ dom v, N.prob (Function.update I v (some x)) c := fun c hc =>
      ih (rank c) (by rw [← hn]; exact hr n c hc) c rfl (Relation.ReflTransGen.tail hreach hc)
    have hP := Net.prob_spec hac hw (discrete_eval hl hI) hreach
    have hPx : ∀ x ∈ dom v, _ := fun x hx => Net.prob_spec hac hw (discrete_eval hl (hI.update hx)) hreach
    cases hk : N.kind n with
    | leaf l =>
      have := (InScope.of_leaf hk).1 hsc
      subst this
      have hpl : ∀ J, (∃ x, N.value J n = some x) → N.prob J n = unlog ((l.value J).getD .nan) := by
        rintro J ⟨x, hx⟩
        unfold Net.prob
        have : N.value J n = l.value J := by rw [Net.value_unfold hac]; simp [Net.valueStep, hk]
        rw [this] at hx ⊢; simp [hx]
      rw [hpl I (by obtain ⟨x, hx, _⟩ := hP.1; exact ⟨x, hx⟩), leaf_marginal (hl n l hreach hk) hv]
      exact Finset.sum_congr rfl (fun x hx => (hpl _ (by obtain ⟨y, hy, _⟩ := (hPx x hx).1; exact ⟨y, hy⟩)).symm)
    | product cs =>
      have hcs : N.ch n = cs := by simp [Net.ch, hk]
      rw [hcs] at ihc
      rw [hP.2.1 cs hk, Finset.sum_congr rfl (fun x hx => (hPx x hx).2.1 cs hk)]
      refine prod_sum_one (dom v) (fun c => InScope N c v) _ _ cs ((hdec n hreach cs hk).imp (fun h => h v)) ?_ ihc ?_
      · rcases InScope.inv hsc with ⟨l, hl', _⟩ | ⟨c, hc, h⟩
        · rw [hk] at hl'; cases hl'
        · exact ⟨c, hcs ▸ hc, h⟩
      · intro c hc hnc x _
        exact Net.prob_congr hac (fun u hu => Function.update_of_ne (fun (h : u = v) => hnc (h ▸ hu)) _ _)
    | sum cs w =>
      have hcs : N.ch n = cs := by simp [Net.ch, hk]
      rw [hcs] at ihc
      obtain ⟨_, r, rfl, _, _⟩ := hw n hreach cs w hk
      rw [hP.2.2 cs r hk, Finset.sum_congr rfl (fun x hx => (hPx x hx).2.2 cs r hk), ← wsum_sum]
      congr 1
      apply List.map_congr_left
      intro c hc
      apply ihc c hc
      rcases InScope.inv hsc with ⟨l, hl', _⟩ | ⟨d, hd, h⟩
      · rw [hk] at hl'; cases hl'
      · exact hcomp n hreach cs _ hk d (hcs ▸ hd) c hc v h

/-! ### Completions -/

open Classical in
/-- The completions of `I` on the variables `vs`. -/
noncomputable def completions (dom : Int → Finset Int) : List Int → VarSet → Finset VarSet
  | [], I => {I}
  | v :: vs, I => (dom v).biUnion (fun x => completions dom vs (Function.update I v (some x)))

theorem mem_completions {dom : Int → Finset Int} : ∀ {vs : List Int} {I J : VarSet}, vs.Nodup →
    (J ∈ completions dom vs I ↔ (∀ v ∈ vs, ∃ x ∈ dom v, J v = some x) ∧ ∀ v, v ∉ vs → J v = I v) := by
  intro vs
  induction vs with
  | nil => intro I J _; simp [completions, funext_iff]
  | cons v vs ih =>
    intro I J hnd
    rw [List.nodup_cons] at hnd
    simp only [completions, Finset.mem_biUnion, ih hnd.2]
    constructor
    · rintro ⟨x, hx, h1, h2⟩
      refine ⟨?_, ?_⟩
      · intro u hu
        rcases List.mem_cons.1 hu with rfl | hu
        · exact ⟨x, hx, by rw [h2 u hnd.1]; simp⟩
        · exact h1 u hu
      · intro u hu
        rw [List.mem_cons, not_or] at hu
        rw [h2 u hu.2, Function.update_of_ne hu.1]
    · rintro ⟨h1, h2⟩
      obtain ⟨x, hx, hJ⟩ := h1 v (by simp)
      refine ⟨x, hx, fun u hu => h1 u (by simp [hu]), ?_⟩
      intro u hu
      by_cases h : u = v
      · subst h; simp [hJ]
      · rw [Function.update_of_ne h, h2 u (by simp [h, hu])]

open Classical in
theorem completions_sum {dom : Int → Finset Int} (f : VarSet → ℝ) (ok : VarSet → Prop)
    (hok : ∀ I v x, ok I → x ∈ dom v → ok (Function.update I v (some x))) (P : Int → Prop)
    (hf : ∀ I v, ok I → P v → I v = none → f I = ∑ x ∈ dom v, f (Function.update I v (some x))) :
    ∀ (vs : List Int) (I : VarSet), vs.Nodup → ok I → (∀ v ∈ vs, P v ∧ I v = none) → f I = ∑ J ∈ completions dom vs I, f J := by
  intro vs
  induction vs with
  | nil => intro I _ _ _; simp [completions]
  | cons v vs ih =>
    intro I hnd hI h
    have hnd' := List.nodup_cons.1 hnd
    rw [hf I v hI (h v (by simp)).1 (h v (by simp)).2, completions, Finset.sum_biUnion]
    · refine Finset.sum_congr rfl (fun x hx => ih _ hnd'.2 (hok I v x hI hx) ?_)
      intro u hu
      refine ⟨(h u (by simp [hu])).1, ?_⟩
      rw [Function.update_of_ne (fun (h : u = v) => hnd'.1 (h ▸ hu))]; exact (h u (by simp [hu])).2
    · intro x _ y _ hxy
      rw [Function.onFun, Finset.disjoint_left]
      intro J hJ hJ'
      have h1 := ((mem_completions hnd'.2).1 hJ).2 v hnd'.1
      have h2 := ((mem_completions hnd'.2).1 hJ').2 v hnd'.1
      rw [h1] at h2; simp at h2; exact hxy h2

/-- The completions of evidence are finitely many, one per choice of values for the unobserved variables. -/
theorem completions_list {N : Net ι XR} {S : ι} {dom : Int → Finset Int} {I : VarSet} (hI : InDomain N S (fun v => ↑(dom v)) I) :
    ∃ vs : List Int, vs.Nodup ∧ (∀ v, v ∈ vs ↔ InScope N S v ∧ I v = none) ∧ ∀ J, J ∈ completions dom vs I ↔ Completion N S dom I J := by
  classical
  obtain ⟨vs, hnd, hvs⟩ : ∃ vs : List Int, vs.Nodup ∧ ∀ v, v ∈ vs ↔ InScope N S v ∧ I v = none := by
    have hf : {v | InScope N S v ∧ I v = none}.Finite := (inScope_finite N S).subset (fun v hv => hv.1)
    exact ⟨hf.toFinset.toList, Finset.nodup_toList _, by simp⟩
  refine ⟨vs, hnd, hvs, fun J => ?_⟩
  rw [mem_completions hnd]
  constructor
  · rintro ⟨h1, h2⟩ v
    constructor
    · intro hs
      by_cases hv : v ∈ vs
      · exact ⟨h1 v hv, fun x hx => by rw [((hvs v).1 hv).2] at hx; cases hx⟩
      · rw [h2 v hv]
        cases hIv : I v with
        | none => exact absurd ((hvs v).2 ⟨hs, hIv⟩) hv
        | some x => exact ⟨⟨x, hI v hs x hIv, rfl⟩, fun y hy => hy⟩
    · intro hs
      exact h2 v (fun hv => hs ((hvs v).1 hv).1)
  · intro h
    refine ⟨fun v hv => ((h v).1 ((hvs v).1 hv).1).1, ?_⟩
    intro v hv
    by_cases hs : InScope N S v
    · cases hIv : I v with
      | none => exact absurd ((hvs v).2 ⟨hs, hIv⟩) hv
      | some x => exact ((h v).1 hs).2 x hIv
    · exact (h v).2 hs

/-- The probability of evidence is the sum over all completions. -/
theorem Net.prob_completions {N : Net ι XR} (hac : Acyclic N.ch) {S : ι} {dom : Int → Finset Int} (hcomp : IsComplete N S) (hdec : IsDecomposable N S)
    (hw : NonnegWeights N S) (hl : DiscreteLeaves N S dom) {I : VarSet} (hI : InDomain N S (fun v => ↑(dom v)) I) (L : Finset VarSet)
    (hL : ∀ J, J ∈ L ↔ Completion N S dom I J) : N.prob I S = ∑ J ∈ L, N.prob J S := by
  classical
  obtain ⟨vs, hnd, hvs, hvc⟩ := completions_list hI
  have hLc : L = completions dom vs I := by ext J; rw [hL, hvc]
  rw [hLc]
  exact completions_sum (dom := dom) (fun J => N.prob J S) (InDomain N S (fun v => ↑(dom v))) (fun I v x h hx => h.update hx) (fun v => InScope N S v)
    (fun I v hI hs hv => Net.prob_marginal hac hcomp hdec hw hl hI hv S Relation.ReflTransGen.refl hs) vs I hnd hI (fun v hv => (hvs v).1 hv)

/-- Without evidence the probability is one. -/
theorem Net.prob_empty {N : Net ι XR} (hac : Acyclic N.ch) {S : ι} (hw : DistWeights N S) {dom : Int → Finset Int} (hl : DiscreteLeaves N S dom) {I : VarSet}
    (hI : ∀ v, InScope N S v → I v = none) : ∀ n, Reach N.ch S n → N.prob I n = 1 := by
  obtain ⟨rank, hr⟩ := id hac
  have hdom : InDomain N S (fun v => ↑(dom v)) I := fun v hv x hx => by rw [hI v hv] at hx; cases hx
  intro n
  induction hn : rank n using Nat.strong_induction_on generalizing n with
  | _ k ih =>
    intro hreach
    have ihc : ∀ c ∈ N.ch n, N.prob I c = 1 := fun c hc =>
      ih (rank c) (by rw [← hn]; exact hr n c hc) c rfl (Relation.ReflTransGen.tail hreach hc)
    have hP := Net.prob_spec hac hw.nonneg (discrete_eval hl hdom) hreach
    cases hk : N.kind n with
    | leaf l =>
      have hv : I (leafVar l) = none := hI _ ⟨n, l, hreach, hk, rfl⟩
      have hd := hl n l hreach hk
      unfold Net.prob
      rw [Net.value_unfold hac]
      cases l with
      | gaussian => exact absurd hd id
      | indicator v x => simp only [leafVar] at hv; simp [Net.valueStep, hk, Leaf.value, hv]
      | multinomial sc v pr mi mv => simp only [leafVar] at hv; simp [Net.valueStep, hk, Leaf.value, hv]
    | product cs =>
      have hcs : N.ch n = cs := by simp [Net.ch, hk]
      rw [hP.2.1 cs hk, List.map_congr_left (fun c hc => ihc c (hcs ▸ hc))]; simp
    | sum cs w =>
      have hcs : N.ch n = cs := by simp [Net.ch, hk]
      obtain ⟨r, rfl, h1, h2, h3⟩ := hw n hreach cs w hk
      rw [hP.2.2 cs r hk, List.map_congr_left (fun c hc => ihc c (hcs ▸ hc)), wsum_const r cs 1 h1, h3]; norm_num

end Gospn
