import Verif.Model.Derive
import Verif.Spec.Derive
import Verif.Proofs.Marginal
import Verif.Proofs.Infer
import Mathlib.Analysis.Calculus.Deriv.Mul
import Mathlib.Analysis.Calculus.Deriv.Add
set_option linter.unusedSectionVars false
namespace Gospn
open Spec

section Calculus
variable {ι : Type}

/-- The partial derivatives of what a node computes with respect to the values of its children, one by one. -/
noncomputable def coefs (k : Kind ι XR) (p : ι → ℝ) : List (ι × ℝ) :=
  match k with
  | .leaf _ => []
  | .sum cs w => cs.zip (w.map realOf)
  | .product cs => cs.zipIdx.map (fun ci => (ci.1, ((cs.eraseIdx ci.2).map p).prod))

theorem zipIdx_shift {α : Type} (l : List α) (k : Nat) : l.zipIdx (k + 1) = (l.zipIdx k).map (fun x => (x.1, x.2 + 1)) := by
  induction l generalizing k with
  | nil => rfl
  | cons a l ih => simp [List.zipIdx_cons, ih (k + 1)]

theorem sum_deriv (v : ℝ → ι → ℝ) (D : ι → ℝ) (a : ℝ) : ∀ (cs : List ι) (w : List XR),
    (∀ c ∈ cs, HasDerivAt (fun x => v x c) (D c) a) →
    HasDerivAt (fun x => (List.zipWith (fun c w => realOf w * v x c) cs w).sum) (((cs.zip (w.map realOf)).map (fun q => q.2 * D q.1)).sum) a := by
  intro cs
  induction cs with
  | nil => intro w _; simpa using hasDerivAt_const a (0 : ℝ)
  | cons c cs ih =>
    intro w h
    cases w with
    | nil => simpa using hasDerivAt_const a (0 : ℝ)
    | cons w0 w =>
      simp only [List.zipWith_cons_cons, List.sum_cons, List.map_cons, List.zip_cons_cons]
      exact ((h c (by simp)).const_mul (realOf w0)).add (ih w (fun c hc => h c (by simp [hc])))

theorem prod_deriv (p : ι → ℝ) (v : ℝ → ι → ℝ) (D : ι → ℝ) (a : ℝ) : ∀ (cs : List ι),
    (∀ c ∈ cs, HasDerivAt (fun x => v x c) (D c) a ∧ v a c = p c) →
    HasDerivAt (fun x => (cs.map (v x)).prod) ((cs.zipIdx.map (fun ci => ((cs.eraseIdx ci.2).map p).prod * D ci.1)).sum) a := by
  intro cs
  induction cs with
  | nil => intro _; simpa using hasDerivAt_const a (1 : ℝ)
  | cons c cs ih =>
    intro h
    simp only [List.map_cons, List.prod_cons]
    have hv : (cs.map (v a)).prod = (cs.map p).prod := by
      congr 1; exact List.map_congr_left (fun c hc => (h c (by simp [hc])).2)
    refine ((h c (by simp)).1.fun_mul (ih (fun c hc => h c (by simp [hc])))).congr_deriv ?_
    simp only [List.zipIdx_cons, Nat.zero_add, zipIdx_shift cs 0, List.map_cons, List.map_map, List.sum_cons, List.eraseIdx_cons_zero,
      List.eraseIdx_cons_succ, Function.comp_def, List.prod_cons, hv, (h c (by simp)).2]
    rw [mul_comm, ← List.sum_map_mul_left]
    congr 2
    apply List.map_congr_left
    intro ci _
    ring

/-- The children named in a node kind. -/
def kindCh (k : Kind ι XR) : List ι :=
  match k with
  | .leaf _ => []
  | .sum cs _ => cs
  | .product cs => cs

theorem kindCh_eq (N : Net ι XR) (m : ι) : kindCh (N.kind m) = N.ch m := by
  unfold kindCh Net.ch; cases N.kind m <;> rfl

/-- The derivative of what a node computes: chain rule. -/
theorem nodeValue_deriv (k : Kind ι XR) (y : ℝ) (p : ι → ℝ) (v : ℝ → ι → ℝ) (D : ι → ℝ) (a : ℝ)
    (h : ∀ c ∈ kindCh k, HasDerivAt (fun x => v x c) (D c) a ∧ v a c = p c) :
    HasDerivAt (fun x => nodeValue k y (v x)) (((coefs k p).map (fun q => q.2 * D q.1)).sum) a := by
  cases k with
  | leaf l => simpa [nodeValue, coefs] using hasDerivAt_const a y
  | sum cs w => exact sum_deriv v D a cs w (fun c hc => (h c hc).1)
  | product cs =>
    have := prod_deriv p v D a cs h
    simpa [nodeValue, coefs, List.map_map, Function.comp_def] using this

/-- What changes if a weight does, besides the children. -/
theorem sumSet_deriv (v : ℝ → ι → ℝ) (D : ι → ℝ) : ∀ (cs : List ι) (r : List ℝ) (j : Nat) (c : ι) (a : ℝ),
    r.length = cs.length → cs[j]? = some c → r[j]? = some a → (∀ c ∈ cs, HasDerivAt (fun x => v x c) (D c) a) →
    HasDerivAt (fun x => (List.zipWith (fun c w => realOf w * v x c) cs ((r.map XR.fin).set j (.fin x))).sum)
      (v a c + ((cs.zip ((r.map XR.fin).map realOf)).map (fun q => q.2 * D q.1)).sum) a := by
  intro cs
  induction cs with
  | nil => intro r j c a _ h; simp at h
  | cons d cs ih =>
    intro r j c a hlen hc ha h
    cases r with
    | nil => simp at hlen
    | cons r0 r =>
      cases j with
      | zero =>
        simp at hc ha; subst hc; subst ha
        simp only [List.map_cons, List.set_cons_zero, List.zipWith_cons_cons, List.sum_cons, List.zip_cons_cons, realOf]
        have h1 := (hasDerivAt_id' r0).fun_mul (h d (by simp))
        have h2 := sum_deriv v D r0 cs (r.map XR.fin) (fun c hc => h c (by simp [hc]))
        refine (h1.fun_add h2).congr_deriv ?_
        ring
      | succ j =>
        simp at hc ha hlen
        simp only [List.map_cons, List.set_cons_succ, List.zipWith_cons_cons, List.sum_cons, List.zip_cons_cons, realOf]
        have h1 := (h d (by simp)).const_mul r0
        refine (h1.fun_add (ih r j c a hlen hc ha (fun c hc => h c (by simp [hc])))).congr_deriv ?_
        ring

theorem nodeValue_congr (k : Kind ι XR) (y : ℝ) {u v : ι → ℝ} (h : ∀ c ∈ kindCh k, u c = v c) : nodeValue k y u = nodeValue k y v := by
  cases k with
  | leaf l => rfl
  | sum cs w =>
    simp only [nodeValue]
    congr 1
    simp only [kindCh] at h
    induction cs generalizing w with
    | nil => simp
    | cons c cs ih =>
      cases w with
      | nil => simp
      | cons w0 w => simp only [List.zipWith_cons_cons, h c (by simp)]; rw [ih w (fun c hc => h c (by simp [hc]))]
  | product cs => simp only [nodeValue]; congr 1; exact List.map_congr_left h

/-! ### Both ways of summing over paths agree -/

/-- Entry of the matrix of partial derivatives of nodes with respect to their children. -/
noncomputable def edgeCoef [DecidableEq ι] (N : Net ι XR) (p : ι → ℝ) (m n : ι) : ℝ :=
  ((coefs (N.kind m) p).map (fun q => if q.1 = n then q.2 else 0)).sum

theorem coefs_sum [DecidableEq ι] [Fintype ι] (l : List (ι × ℝ)) (D : ι → ℝ) :
    (l.map (fun q => q.2 * D q.1)).sum = ∑ c, (l.map (fun q => if q.1 = c then q.2 else 0)).sum * D c := by
  induction l with
  | nil => simp
  | cons q l ih =>
    simp only [List.map_cons, List.sum_cons, ih, add_mul, Finset.sum_add_distrib]
    simp

theorem edgeCoef_zero [DecidableEq ι] {N : Net ι XR} {p : ι → ℝ} {m n : ι} (h : n ∉ N.ch m) : edgeCoef N p m n = 0 := by
  unfold edgeCoef
  have : ∀ q ∈ coefs (N.kind m) p, q.1 ≠ n := by
    intro q hq
    unfold coefs at hq; unfold Net.ch at h
    cases hk : N.kind m with
    | leaf l => simp [hk] at hq
    | sum cs w => simp only [hk] at hq h; intro e; subst e; exact h (List.of_mem_zip hq).1
    | product cs =>
      simp only [hk, List.mem_map] at hq h
      obtain ⟨⟨c, i⟩, hc, rfl⟩ := hq
      intro e; subst e
      exact h (List.fst_mem_of_mem_zipIdx hc)
  generalize coefs (N.kind m) p = l at this ⊢
  induction l with
  | nil => rfl
  | cons q l ih => simp [this q (by simp), ih (fun q hq => this q (by simp [hq]))]

/-- Forward accumulation `D` from a source `b` at `n` and backward accumulation `G` from the root `S` meet. -/
theorem accumulate [DecidableEq ι] [Fintype ι] (A : ι → ι → ℝ) (D G : ι → ℝ) (S n : ι) (b : ℝ)
    (hD : ∀ m, G m ≠ 0 → D m = (if m = n then b else 0) + ∑ c, A m c * D c)
    (hG : ∀ c, G c = (if c = S then 1 else 0) + ∑ m, A m c * G m) : D S = G n * b := by
  have h1 : ∑ m, G m * D m = G n * b + ∑ m, ∑ c, G m * A m c * D c := by
    have : ∀ m, G m * D m = (if m = n then G n * b else 0) + ∑ c, G m * A m c * D c := by
      intro m
      by_cases hm : G m = 0
      · by_cases hmn : m = n
        · subst hmn; simp [hm]
        · simp [hm, hmn]
      · rw [hD m hm, mul_add, Finset.mul_sum]
        congr 1
        · by_cases hmn : m = n
          · subst hmn; simp
          · simp [hmn]
        · exact Finset.sum_congr rfl (fun c _ => by ring)
    rw [Finset.sum_congr rfl (fun m _ => this m), Finset.sum_add_distrib]
    simp
  have h2 : ∑ c, G c * D c = D S + ∑ m, ∑ c, G m * A m c * D c := by
    have : ∀ c, G c * D c = (if c = S then D S else 0) + ∑ m, G m * A m c * D c := by
      intro c
      conv_lhs => rw [hG c]
      rw [add_mul, Finset.sum_mul]
      congr 1
      · by_cases hc : c = S
        · subst hc; simp
        · simp [hc]
      · exact Finset.sum_congr rfl (fun c _ => by ring)
    rw [Finset.sum_congr rfl (fun m _ => this m), Finset.sum_add_distrib, Finset.sum_comm]
    simp
  linarith

section Main
variable [DecidableEq ι] [Fintype ι] {N : Net ι XR} {S : ι} {p : ι → ℝ}

theorem reach_step {m c : ι} (h : Reach N.ch S m) (hc : c ∈ N.ch m) : Reach N.ch S c := Relation.ReflTransGen.tail h hc

theorem Perturbed.at (hac : Acyclic N.ch) (hp : IsValuation N S p) {n : ι} {v : ℝ → ι → ℝ} (hv : Perturbed N S p n v) :
    ∀ m, Reach N.ch S m → v (p n) m = p m := by
  obtain ⟨rank, hr⟩ := id hac
  intro m
  induction hm : rank m using Nat.strong_induction_on generalizing m with
  | _ k ih =>
    intro hreach
    by_cases hmn : m = n
    · subst hmn; exact (hv _).1
    · rw [(hv _).2 m hreach hmn]
      refine (nodeValue_congr _ _ ?_).trans (hp m hreach).1.symm
      intro c hc
      rw [kindCh_eq] at hc
      exact ih (rank c) (by rw [← hm]; exact hr m c hc) c rfl (reach_step hreach hc)

theorem Perturbed.const (hac : Acyclic N.ch) (hp : IsValuation N S p) {n : ι} {v : ℝ → ι → ℝ} (hv : Perturbed N S p n v) (x : ℝ) :
    ∀ m, Reach N.ch S m → ¬ Reach N.ch m n → v x m = p m := by
  obtain ⟨rank, hr⟩ := id hac
  intro m
  induction hm : rank m using Nat.strong_induction_on generalizing m with
  | _ k ih =>
    intro hreach hn
    have hmn : m ≠ n := by rintro rfl; exact hn Relation.ReflTransGen.refl
    rw [(hv _).2 m hreach hmn]
    refine (nodeValue_congr _ _ ?_).trans (hp m hreach).1.symm
    intro c hc
    rw [kindCh_eq] at hc
    exact ih (rank c) (by rw [← hm]; exact hr m c hc) c rfl (reach_step hreach hc) (fun h => hn (Relation.ReflTransGen.head hc h))

theorem not_reach_parent {ch : ι → List ι} (hac : Acyclic ch) {u c : ι} (hc : c ∈ ch u) : ¬ Reach ch c u := by
  obtain ⟨rank, hr⟩ := hac
  have hle : ∀ {a b}, Reach ch a b → rank b ≤ rank a := by
    intro a b h
    induction h with
    | refl => exact Nat.le_refl _
    | tail _ hc ih => have := hr _ _ hc; omega
  intro h
  have := hle h; have := hr u c hc; omega

/-- Backward accumulation gives the partial derivative with respect to a node's value. -/
theorem isPartial_of_backward (hac : Acyclic N.ch) (hp : IsValuation N S p) (G : ι → ℝ)
    (hG : ∀ c, G c = (if c = S then 1 else 0) + ∑ m, edgeCoef N p m c * G m) (hr : ∀ m, G m ≠ 0 → Reach N.ch S m) (n : ι) :
    IsPartial N S p n (G n) := by
  classical
  constructor
  · have hl : ∀ x : ℝ, LocalStep N.ch (fun (f : ι → ℝ) m => if m = n then x else nodeValue (N.kind m) (p m) f) := by
      intro x f g m h
      by_cases hm : m = n
      · simp [hm]
      · simp only [if_neg hm]; exact nodeValue_congr _ _ (fun c hc => h c (kindCh_eq N m ▸ hc))
    refine ⟨fun x => dagRec (fun f m => if m = n then x else nodeValue (N.kind m) (p m) f) 0, fun x => ⟨?_, fun m _ hm => ?_⟩⟩
    · beta_reduce; rw [dagRec_unfold hac (hl x)]; simp
    · beta_reduce; rw [dagRec_unfold hac (hl x)]; simp only [if_neg hm]
  · intro v hv
    have hat := Perturbed.at hac hp hv
    have hd : ∀ m, Reach N.ch S m → DifferentiableAt ℝ (fun x => v x m) (p n) := by
      obtain ⟨rank, hr⟩ := id hac
      intro m
      induction hm : rank m using Nat.strong_induction_on generalizing m with
      | _ k ih =>
        intro hreach
        by_cases hmn : m = n
        · subst hmn
          have : (fun x => v x m) = fun x => x := funext fun x => (hv x).1
          rw [this]; exact differentiableAt_id
        · have : (fun x => v x m) = fun x => nodeValue (N.kind m) (p m) (v x) := funext fun x => (hv x).2 m hreach hmn
          rw [this]
          refine (nodeValue_deriv (N.kind m) (p m) p v (fun c => deriv (fun x => v x c) (p n)) (p n) ?_).differentiableAt
          intro c hc
          rw [kindCh_eq] at hc
          have hcr := reach_step hreach hc
          exact ⟨(ih (rank c) (by rw [← hm]; exact hr m c hc) c rfl hcr).hasDerivAt, hat c hcr⟩
    set D : ι → ℝ := fun c => deriv (fun x => v x c) (p n) with hDdef
    have hDa : ∀ m, Reach N.ch S m → HasDerivAt (fun x => v x m) (D m) (p n) := fun m hm => (hd m hm).hasDerivAt
    have hD0 : ∀ m, Reach N.ch S m → ¬ Reach N.ch m n → D m = 0 := by
      intro m hm hn
      have : (fun x => v x m) = fun _ => p m := funext fun x => Perturbed.const hac hp hv x m hm hn
      simp [hDdef, this]
    have hSr : Reach N.ch S S := Relation.ReflTransGen.refl
    have key := accumulate (edgeCoef N p) D G S n 1 (by
      intro m hm
      have hreach := hr m hm
      have hcs : ∑ c, edgeCoef N p m c * D c = ((coefs (N.kind m) p).map (fun q => q.2 * D q.1)).sum := (coefs_sum _ D).symm
      by_cases hmn : m = n
      · subst hmn
        rw [if_pos rfl]
        have h1 : D m = 1 := by
          have : (fun x => v x m) = fun x => x := funext fun x => (hv x).1
          simp [hDdef, this]
        have h0 : ∑ c, edgeCoef N p m c * D c = 0 := by
          apply Finset.sum_eq_zero
          intro c _
          by_cases hc : c ∈ N.ch m
          · rw [hD0 c (reach_step hreach hc) (not_reach_parent hac hc), mul_zero]
          · rw [edgeCoef_zero hc, zero_mul]
        rw [h1, h0, add_zero]
      · rw [if_neg hmn, zero_add, hcs]
        have : (fun x => v x m) = fun x => nodeValue (N.kind m) (p m) (v x) := funext fun x => (hv x).2 m hreach hmn
        have h2 := nodeValue_deriv (N.kind m) (p m) p v D (p n) (fun c hc => by
          rw [kindCh_eq] at hc; exact ⟨hDa c (reach_step hreach hc), hat c (reach_step hreach hc)⟩)
        exact (hDa m hreach).unique (this ▸ h2)) hG
    rw [mul_one] at key
    rw [← key]
    exact hDa S hSr

theorem setWeight_kindCh (k : Kind ι XR) (j : Nat) (x : ℝ) : kindCh (setWeight k j x) = kindCh k := by cases k <;> rfl

theorem list_set_self {α : Type} (l : List α) (j : Nat) (a : α) (h : l[j]? = some a) : l.set j a = l := by
  obtain ⟨hj, rfl⟩ := List.getElem?_eq_some_iff.1 h
  exact List.set_getElem_self hj

/-- Backward accumulation gives the partial derivative with respect to a weight. -/
theorem isWeightPartial_of_backward (hac : Acyclic N.ch) (hp : IsValuation N S p) (G : ι → ℝ)
    (hG : ∀ c, G c = (if c = S then 1 else 0) + ∑ m, edgeCoef N p m c * G m) (hr : ∀ m, G m ≠ 0 → Reach N.ch S m) {n : ι} (hn : Reach N.ch S n)
    {cs : List ι} {r : List ℝ} (hk : N.kind n = .sum cs (r.map XR.fin)) (hlen : r.length = cs.length) {j : Nat} {c : ι} {a : ℝ} (hc : cs[j]? = some c)
    (ha : r[j]? = some a) : IsWeightPartial N S p n j a (G n * p c) := by
  classical
  constructor
  · have hl : ∀ x : ℝ, LocalStep N.ch (fun (f : ι → ℝ) m => nodeValue (if m = n then setWeight (N.kind m) j x else N.kind m) (p m) f) := by
      intro x f g m h
      apply nodeValue_congr
      intro c hc
      apply h
      rw [← kindCh_eq]
      split at hc
      · rwa [setWeight_kindCh] at hc
      · exact hc
    exact ⟨fun x => dagRec (fun f m => nodeValue (if m = n then setWeight (N.kind m) j x else N.kind m) (p m) f) 0,
      fun x m _ => dagRec_unfold hac (hl x) 0 m⟩
  · intro v hv
    have hself : setWeight (N.kind n) j a = N.kind n := by
      rw [hk]; simp only [setWeight]
      rw [list_set_self _ j _ (by simp [ha])]
    have hat : ∀ m, Reach N.ch S m → v a m = p m := by
      obtain ⟨rank, hr⟩ := id hac
      intro m
      induction hm : rank m using Nat.strong_induction_on generalizing m with
      | _ k ih =>
        intro hreach
        have : (if m = n then setWeight (N.kind m) j a else N.kind m) = N.kind m := by
          by_cases hmn : m = n
          · subst hmn; simp [hself]
          · simp [hmn]
        rw [hv a m hreach, this]
        refine (nodeValue_congr _ _ ?_).trans (hp m hreach).1.symm
        intro c hc
        rw [kindCh_eq] at hc
        exact ih (rank c) (by rw [← hm]; exact hr m c hc) c rfl (reach_step hreach hc)
    -- derivative of a node from those of its children
    have hnode : ∀ D : ι → ℝ, ∀ m, Reach N.ch S m → (∀ c ∈ N.ch m, HasDerivAt (fun x => v x c) (D c) a) →
        HasDerivAt (fun x => v x m) ((if m = n then p c else 0) + ((coefs (N.kind m) p).map (fun q => q.2 * D q.1)).sum) a := by
      intro D m hm hD
      by_cases hmn : m = n
      · subst hmn
        have : (fun x => v x m) = fun x => (List.zipWith (fun c w => realOf w * v x c) cs ((r.map XR.fin).set j (.fin x))).sum := by
          funext x
          rw [hv x m hm, if_pos rfl, hk]; rfl
        rw [this, if_pos rfl, ← hat c (reach_step hm (by simp [Net.ch, hk]; exact List.mem_of_getElem? hc))]
        have h := sumSet_deriv v D cs r j c a hlen hc ha (fun c hc => hD c (by simpa [Net.ch, hk] using hc))
        rw [hk]; exact h
      · have : (fun x => v x m) = fun x => nodeValue (N.kind m) (p m) (v x) := by
          funext x; rw [hv x m hm, if_neg hmn]
        rw [this, if_neg hmn, zero_add]
        exact nodeValue_deriv (N.kind m) (p m) p v D a (fun c hc => by
          rw [kindCh_eq] at hc; exact ⟨hD c hc, hat c (reach_step hm hc)⟩)
    have hd : ∀ m, Reach N.ch S m → DifferentiableAt ℝ (fun x => v x m) a := by
      obtain ⟨rank, hr⟩ := id hac
      intro m
      induction hm : rank m using Nat.strong_induction_on generalizing m with
      | _ k ih =>
        intro hreach
        exact (hnode (fun c => deriv (fun x => v x c) a) m hreach (fun c hc =>
          (ih (rank c) (by rw [← hm]; exact hr m c hc) c rfl (reach_step hreach hc)).hasDerivAt)).differentiableAt
    set D : ι → ℝ := fun c => deriv (fun x => v x c) a with hDdef
    have hDa : ∀ m, Reach N.ch S m → HasDerivAt (fun x => v x m) (D m) a := fun m hm => (hd m hm).hasDerivAt
    have key := accumulate (edgeCoef N p) D G S n (p c) (by
      intro m hm
      have hreach := hr m hm
      have hcs : ∑ c, edgeCoef N p m c * D c = ((coefs (N.kind m) p).map (fun q => q.2 * D q.1)).sum := (coefs_sum _ D).symm
      rw [hcs]
      exact (hDa m hreach).unique (hnode D m hreach (fun c hc => hDa c (reach_step hreach hc)))) hG
    rw [← key]
    exact hDa S Relation.ReflTransGen.refl

end Main
end Calculus
end Gospn
