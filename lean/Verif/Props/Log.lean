import Verif.Proofs.Log
import Verif.Proofs.Trim
import Mathlib.Data.List.Permutation
/-!
Properties C18 to C21: /repo/utils/log.go in exact arithmetic.
-/
namespace Gospn
open Spec

/-- C18: `LogSumExp` of a non-empty slice of log-probabilities is the logarithm of the sum of their exponentials. -/
theorem C18_logSumExp (a : List XR) (hne : a ≠ []) (ha : ∀ v ∈ a, IsLogProb v) :
    ∃ r, logSumExp a = some r ∧ IsLogProb r ∧ unlog r = (a.map unlog).sum ∧ (r = .ninf ↔ ∀ v ∈ a, v = .ninf) := by
  obtain ⟨r, h1, h2, h3⟩ := logSumExp_spec hne ha
  refine ⟨r, h1, h2, h3, ?_⟩
  rw [← unlog_eq_zero h2, h3]
  constructor
  · intro h v hv
    have h4 := le_sum_of_mem hv
    have h5 := unlog_nonneg v
    rw [← unlog_eq_zero (ha v hv)]; linarith
  · intro h; exact sum_eq_zero_of (fun v hv => by rw [h v hv]; rfl)

/-- C18: the result does not depend on the order of the slice. -/
theorem C18_logSumExp_order (a b : List XR) (hp : a.Perm b) (ha : ∀ v ∈ a, IsLogProb v) : logSumExp a = logSumExp b := by
  by_cases hne : a = []
  · subst hne; rw [List.nil_perm.1 hp]
  · have hb : ∀ v ∈ b, IsLogProb v := fun v hv => ha v (hp.mem_iff.2 hv)
    have hne' : b ≠ [] := fun h => hne (by subst h; exact List.perm_nil.1 hp)
    obtain ⟨r, h1, h2, h3⟩ := logSumExp_spec hne ha
    obtain ⟨s, g1, g2, g3⟩ := logSumExp_spec hne' hb
    rw [h1, g1, unlog_inj h2 g2 (by rw [h3, g3, (hp.map unlog).sum_eq])]

/-- C18: the two-argument version is the logarithm of the sum of two exponentials, in either order. -/
theorem C18_logSumExpPair (x y : XR) (hx : IsLogProb x) (hy : IsLogProb y) :
    IsLogProb (logSumExpPair x y) ∧ unlog (logSumExpPair x y) = unlog x + unlog y ∧ logSumExpPair x y = logSumExpPair y x ∧
    logSumExp [x, y] = some (logSumExpPair x y) := by
  have h := logSumExpPair_spec hx hy
  have h' := logSumExpPair_spec hy hx
  refine ⟨h.1, h.2, unlog_inj h.1 h'.1 (by rw [h.2, h'.2, add_comm]), ?_⟩
  obtain ⟨r, h1, h2, h3⟩ := logSumExp_spec (l := [x, y]) (by simp) (by simp [hx, hy])
  rw [h1, unlog_inj h2 h.1 (by rw [h3, h.2]; simp)]

example : ∃ a : List XR, a ≠ [] ∧ (∀ v ∈ a, IsLogProb v) ∧ a = [.fin (-1), .ninf, .fin 3, .fin (-1)] :=
  ⟨_, by simp, by simp, rfl⟩

/-- C19: signed log-space addition. Values are reals or minus infinity, signs -1, 0 or 1, and there is a sign for each value. -/
theorem C19_logSumLog (v : List XR) (s : List Int) (hlen : v.length ≤ s.length) (hv : ∀ x ∈ v, IsLogProb x)
    (hs : ∀ x ∈ s, x = -1 ∨ x = 0 ∨ x = 1) :
    ∃ l sign, logSumLog v s = some (l, sign) ∧ IsLogProb l ∧ (sign = -1 ∨ sign = 0 ∨ sign = 1) ∧
      (sign : ℝ) * unlog l = ((v.zip s).map (fun p => (p.2 : ℝ) * unlog p.1)).sum :=
  logSumLog_spec hlen hv hs

example : ∃ (v : List XR) (s : List Int), v.length ≤ s.length ∧ (∀ x ∈ v, IsLogProb x) ∧ (∀ x ∈ s, x = -1 ∨ x = 0 ∨ x = 1) ∧
    v = [.fin 1, .ninf, .fin 2] ∧ s = [1, -1, -1] := ⟨_, _, by simp, by simp, by simp, rfl, rfl⟩

/-- C20, part: products of probabilities, zeros included. -/
theorem C20_logProd_partial (p : List ℝ) (hp : ∀ q ∈ p, 0 ≤ q) :
    IsLogProb (logProd (p.map XR.fin)) ∧ unlog (logProd (p.map XR.fin)) = p.prod := by
  have := logProdFrom_spec p (.fin 0) trivial hp
  simpa [logProd] using this

/-- C20, part: sums of probabilities that are not all zero. Missing: a non-empty list of zeros (`C20_logSum_refuted`). -/
theorem C20_logSum_partial (p : List ℝ) (hp : ∀ q ∈ p, 0 ≤ q) (hpos : p = [] ∨ 0 < p.sum) :
    IsLogProb (logSum (p.map XR.fin)) ∧ unlog (logSum (p.map XR.fin)) = p.sum := logSum_spec hp hpos

/-- C20, part: sums of two probabilities of which the first is not zero. Missing: `p1 = 0` (`C20_logSumPair_refuted`). -/
theorem C20_logSumPair_partial (p1 p2 : ℝ) (h1 : 0 < p1) (h2 : 0 ≤ p2) :
    IsLogProb (logSumPair (XR.fin p1) (XR.fin p2)) ∧ unlog (logSumPair (XR.fin p1) (XR.fin p2)) = p1 + p2 := logSumPair_spec h1 h2

example : ∃ p : List ℝ, (∀ q ∈ p, 0 ≤ q) ∧ 0 < p.sum ∧ p = [0, 1, 0, 2] := ⟨_, by simp, by norm_num, rfl⟩

/-- C20 is false for `LogSum`: the sum of a non-empty list of zeros comes out as NaN. -/
theorem C20_logSum_refuted (n : Nat) : logSum (List.replicate (n + 1) (XR.fin 0)) = .nan := by
  have h1 : ∀ k, logSumMax (List.replicate k (XR.fin 0)) = .ninf := by
    intro k
    unfold logSumMax
    induction k with
    | zero => rfl
    | succ k ih =>
      rw [List.replicate_succ, List.foldl_cons]
      simp only [XR.g_lt, XR.g_ninf, XR.g_log, XR.log_zero]
      simpa [XR.lt] using ih
  unfold logSum
  simp only [h1, XR.g_add, XR.g_log, XR.g_exp, XR.g_sub, XR.g_ofInt]
  have h2 : ∀ k, (List.replicate k (XR.fin 0)).foldl (fun lg q => XR.add lg (XR.exp (XR.sub (XR.log q) .ninf))) .nan = .nan := by
    intro k
    induction k with
    | zero => rfl
    | succ k ih => rw [List.replicate_succ, List.foldl_cons]; exact ih
  rw [List.replicate_succ, List.foldl_cons]
  simp only [XR.log_zero]
  have : XR.add (XR.fin ((0 : Int) : ℝ)) (XR.exp (XR.sub .ninf .ninf)) = .nan := rfl
  rw [this, h2]; rfl

/-- C20 is false for `LogSumPair`: with a zero as first argument the result is NaN whatever the second probability is. -/
theorem C20_logSumPair_refuted (p2 : ℝ) (h : 0 ≤ p2) : logSumPair (XR.fin 0) (XR.fin p2) = .nan := by
  rcases h.eq_or_lt with rfl | h
  · simp [logSumPair, XR.div, XR.signedInf, XR.log, XR.add]
  · simp [logSumPair, XR.div, XR.signedInf, XR.log, XR.add, h]

/-- C21: `Trim(a, c)` with `==` as any test: the returned slice is the start of the backing array, holds exactly the elements
that do not compare equal to `c`, each as often as before, and the backing array is a permutation of what it was. -/
theorem C21_trim {α : Type} (isC : α → Bool) (a : Array α) :
    (trim isC a).2.Perm (a.toList.filter (fun x => !isC x)) ∧ (trim isC a).2 <+: (trim isC a).1.toList ∧
    (trim isC a).1.toList.Perm a.toList :=
  ⟨(trim_spec isC a).2.2, (trim_spec isC a).2.1, (trim_spec isC a).1⟩

example : (trim (fun x : Nat => x == 0) #[0, 1, 0, 2, 0, 3]).2 = [2, 1, 3] := by decide

end Gospn
