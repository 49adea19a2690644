import Verif.Spec.Perturb
import Verif.Proofs.RoundMax
/-
How far values move when parameters move.
-/
set_option linter.unusedSectionVars false
set_option linter.unusedSimpArgs false

namespace Gospn
open Spec
variable {ι : Type} [Fintype ι] {δ : ℝ}

theorem paramWithin_log {x y : XR} (h : ParamWithin δ x y) : Within δ (XR.log x) (XR.log y) := by
  obtain ⟨r, s, rfl, rfl, hr, hs, h1, h2⟩ := h
  obtain ⟨a1, a2⟩ := log_nonneg_spec hr
  obtain ⟨b1, b2⟩ := log_nonneg_spec hs
  exact close_of_unlog a1 b1 (by rw [a2, b2]; exact h1) (by rw [a2, b2]; exact h2)

theorem within_add {d e : ℝ} {x y z w : XR} (h1 : Within d x y) (h2 : Within e z w) : Within (d + e) (XR.add x z) (XR.add y w) := by
  rcases h1.cases with ⟨rfl, rfl⟩ | ⟨a, b, rfl, rfl, hab⟩ <;> rcases h2.cases with ⟨rfl, rfl⟩ | ⟨a', b', rfl, rfl, hab'⟩
  · trivial
  · trivial
  · trivial
  · show |a + a' - (b + b')| ≤ d + e
    have : a + a' - (b + b') = (a - b) + (a' - b') := by ring
    rw [this]
    exact le_trans (abs_add_le _ _) (by linarith)

theorem weighted_perturbed {e : ℝ} : ∀ (xs ys w q : List XR), List.Forall₂ (Within e) xs ys → xs.length ≤ w.length → List.Forall₂ (ParamWithin δ) w q →
    ∃ us zs, weighted xs w = some us ∧ weighted ys q = some zs ∧ List.Forall₂ (Within (e + δ)) us zs := by
  intro xs
  induction xs with
  | nil => intro ys w q h _ _; cases h; exact ⟨[], [], rfl, rfl, .nil⟩
  | cons x xs ih =>
    intro ys w q h hlen hw
    cases h with
    | cons hxy h =>
    cases hw with
    | nil => simp at hlen
    | cons hp hw =>
    obtain ⟨us, zs, h1, h2, h3⟩ := ih _ _ _ h (by simpa using hlen) hw
    exact ⟨_, _, by rw [weighted, h1]; rfl, by rw [weighted, h2]; rfl, .cons (within_add hxy (paramWithin_log hp)) h3⟩

theorem weightedMax_perturbed {e : ℝ} : ∀ (xs ys w q : List XR), List.Forall₂ (Within e) xs ys → xs.length ≤ w.length → List.Forall₂ (ParamWithin δ) w q →
    ∃ us zs, weightedMax xs w = some us ∧ weightedMax ys q = some zs ∧ List.Forall₂ (Within (e + δ)) us zs := by
  intro xs
  induction xs with
  | nil => intro ys w q h _ _; cases h; exact ⟨[], [], rfl, rfl, .nil⟩
  | cons x xs ih =>
    intro ys w q h hlen hw
    cases h with
    | cons hxy h =>
    cases hw with
    | nil => simp at hlen
    | cons hp hw =>
    obtain ⟨us, zs, h1, h2, h3⟩ := ih _ _ _ h (by simpa using hlen) hw
    refine ⟨_, _, by rw [weightedMax, h1]; rfl, by rw [weightedMax, h2]; rfl, .cons ?_ h3⟩
    rw [add_comm]
    exact within_add (paramWithin_log hp) hxy

theorem prod_perturbed {g y : ι → XR} {count : ι → ℕ} : ∀ (cs : List ι) (a b : XR) (e : ℝ), Within e a b → (∀ c ∈ cs, Within (δ * count c) (g c) (y c)) →
    Within (e + δ * (cs.map count).sum) ((cs.map g).foldl XR.add a) ((cs.map y).foldl XR.add b) := by
  intro cs
  induction cs with
  | nil => intro a b e h _; simpa using h
  | cons c cs ih =>
    intro a b e h hc
    have := ih (XR.add a (g c)) (XR.add b (y c)) (e + δ * count c) (within_add h (hc c (by simp))) (fun c' h' => hc c' (by simp [h']))
    simp only [List.map_cons, List.foldl_cons, List.sum_cons]
    refine this.mono (le_of_eq ?_)
    push_cast
    ring

/-- Values and MAP values move by at most `δ` per parameter they are a product of. -/
theorem value_perturbed {N M : Net ι XR} {S : ι} {I : VarSet} {count : ι → ℕ} (hac : Acyclic N.ch) (hδ : 0 ≤ δ) (hch : ∀ n, M.ch n = N.ch n)
    (hs : ∀ n, Reach N.ch S n → PerturbedNode δ (fun l m => ∃ x y, l.value I = some x ∧ m.value I = some y ∧ Within δ x y) (N.kind n) (M.kind n)) (hcount : ParamCount N S count) :
    ∀ n, Reach N.ch S n → ∃ x y, N.value I n = some x ∧ M.value I n = some y ∧ Within (δ * count n) x y := by
  have hac' : Acyclic M.ch := by rw [funext hch]; exact hac
  obtain ⟨rank, hr⟩ := id hac
  intro n
  induction hn : rank n using Nat.strong_induction_on generalizing n with
  | _ k ih =>
    intro hreach
    have ihc : ∀ c ∈ N.ch n, ∃ v y, N.value I c = some v ∧ M.value I c = some y ∧ Within (δ * count c) v y := fun c hc =>
      ih (rank c) (by rw [← hn]; exact hr n c hc) c rfl (Relation.ReflTransGen.tail hreach hc)
    have : Nonempty XR := ⟨.ninf⟩
    choose! g y hg hy hgy using ihc
    have hc0 := hcount n hreach
    rw [Net.value_unfold hac, Net.value_unfold hac']
    unfold Net.valueStep
    have hn2 := hs n hreach
    cases hk : N.kind n with
    | leaf l =>
      cases hm : M.kind n with
      | sum ds q => rw [hk, hm] at hn2; exact absurd hn2 id
      | product ds => rw [hk, hm] at hn2; exact absurd hn2 id
      | leaf m =>
      simp only [hk] at hc0 ⊢
      have hc1 : (1 : ℝ) ≤ count n := by exact_mod_cast hc0
      rw [hk, hm] at hn2
      obtain ⟨v, z, h1, h2, h3⟩ := hn2
      exact ⟨v, z, h1, h2, h3.mono (by nlinarith)⟩
    | sum cs w =>
      cases hm : M.kind n with
      | leaf ds => rw [hk, hm] at hn2; exact absurd hn2 id
      | product ds => rw [hk, hm] at hn2; exact absurd hn2 id
      | sum ds q =>
      have hch : N.ch n = cs := by simp [Net.ch, hk]
      rw [hch] at hg hy hgy
      simp only [hk] at hc0 ⊢
      rw [hk, hm] at hn2
      obtain ⟨rfl, hne, hlenw, hw⟩ := hn2
      rw [mapM_eq_some hg, mapM_eq_some hy]
      simp only [Option.bind_some]
      have hf : List.Forall₂ (Within (δ * (count n - 1))) (cs.map g) (cs.map y) := by
        rw [List.forall₂_map_left_iff, List.forall₂_map_right_iff, List.forall₂_same]
        intro c hc
        refine (hgy c hc).mono (mul_le_mul_of_nonneg_left ?_ hδ)
        have : ((count c + 1 : ℕ) : ℝ) ≤ count n := by exact_mod_cast hc0 c hc
        push_cast at this
        linarith
      obtain ⟨us, zs, hus, hzs, huz⟩ := weighted_perturbed (cs.map g) (cs.map y) w q hf (by simpa using hlenw) hw
      have hne' : us ≠ [] := by
        intro h0
        have := weighted_length _ _ _ hus
        rw [h0, List.length_map, List.length_nil] at this
        exact hne (List.length_eq_zero_iff.1 this.symm)
      obtain ⟨r, s, h1, h2, h3⟩ := lse_lipschitz huz hne'
      refine ⟨r, s, by rw [hus]; exact h1, by rw [hzs]; exact h2, h3.mono (le_of_eq (by ring))⟩
    | product cs =>
      cases hm : M.kind n with
      | leaf ds => rw [hk, hm] at hn2; exact absurd hn2 id
      | sum ds q => rw [hk, hm] at hn2; exact absurd hn2 id
      | product ds =>
      rw [hk, hm] at hn2
      obtain rfl := hn2
      have hch : N.ch n = cs := by simp [Net.ch, hk]
      rw [hch] at hg hy hgy
      simp only [hk] at hc0 ⊢
      rw [mapM_eq_some hg, mapM_eq_some hy]
      refine ⟨_, _, rfl, rfl, ?_⟩
      have := prod_perturbed (δ := δ) (count := count) cs (.fin 0) (.fin 0) 0 (by simp [Within]) hgy
      simp only [prodCompute, XR.g_add, XR.g_ofInt, Int.cast_zero]
      refine this.mono ?_
      rw [zero_add]
      exact mul_le_mul_of_nonneg_left (by exact_mod_cast hc0) hδ

theorem max_perturbed {N M : Net ι XR} {S : ι} {I : VarSet} {count : ι → ℕ} (hac : Acyclic N.ch) (hδ : 0 ≤ δ) (hch : ∀ n, M.ch n = N.ch n)
    (hs : ∀ n, Reach N.ch S n → PerturbedNode δ (fun l m => ∃ x y, l.max I = some x ∧ m.max I = some y ∧ Within δ x y) (N.kind n) (M.kind n)) (hcount : ParamCount N S count) :
    ∀ n, Reach N.ch S n → ∃ x y, N.max I n = some x ∧ M.max I n = some y ∧ Within (δ * count n) x y := by
  have hac' : Acyclic M.ch := by rw [funext hch]; exact hac
  obtain ⟨rank, hr⟩ := id hac
  intro n
  induction hn : rank n using Nat.strong_induction_on generalizing n with
  | _ k ih =>
    intro hreach
    have ihc : ∀ c ∈ N.ch n, ∃ v y, N.max I c = some v ∧ M.max I c = some y ∧ Within (δ * count c) v y := fun c hc =>
      ih (rank c) (by rw [← hn]; exact hr n c hc) c rfl (Relation.ReflTransGen.tail hreach hc)
    have : Nonempty XR := ⟨.ninf⟩
    choose! g y hg hy hgy using ihc
    have hc0 := hcount n hreach
    rw [Net.max_unfold hac, Net.max_unfold hac']
    unfold Net.maxStep
    have hn2 := hs n hreach
    cases hk : N.kind n with
    | leaf l =>
      cases hm : M.kind n with
      | sum ds q => rw [hk, hm] at hn2; exact absurd hn2 id
      | product ds => rw [hk, hm] at hn2; exact absurd hn2 id
      | leaf m =>
      simp only [hk] at hc0 ⊢
      have hc1 : (1 : ℝ) ≤ count n := by exact_mod_cast hc0
      rw [hk, hm] at hn2
      obtain ⟨v, z, h1, h2, h3⟩ := hn2
      exact ⟨v, z, h1, h2, h3.mono (by nlinarith)⟩
    | sum cs w =>
      cases hm : M.kind n with
      | leaf ds => rw [hk, hm] at hn2; exact absurd hn2 id
      | product ds => rw [hk, hm] at hn2; exact absurd hn2 id
      | sum ds q =>
      have hch : N.ch n = cs := by simp [Net.ch, hk]
      rw [hch] at hg hy hgy
      simp only [hk] at hc0 ⊢
      rw [hk, hm] at hn2
      obtain ⟨rfl, hne, hlenw, hw⟩ := hn2
      rw [mapM_eq_some hg, mapM_eq_some hy]
      simp only [Option.bind_some]
      have hf : List.Forall₂ (Within (δ * (count n - 1))) (cs.map g) (cs.map y) := by
        rw [List.forall₂_map_left_iff, List.forall₂_map_right_iff, List.forall₂_same]
        intro c hc
        refine (hgy c hc).mono (mul_le_mul_of_nonneg_left ?_ hδ)
        have : ((count c + 1 : ℕ) : ℝ) ≤ count n := by exact_mod_cast hc0 c hc
        push_cast at this
        linarith
      obtain ⟨us, zs, hus, hzs, huz⟩ := weightedMax_perturbed (cs.map g) (cs.map y) w q hf (by simpa using hlenw) hw
      exact ⟨_, _, by rw [hus]; rfl, by rw [hzs]; rfl, (max_lipschitz huz).mono (le_of_eq (by ring))⟩
    | product cs =>
      cases hm : M.kind n with
      | leaf ds => rw [hk, hm] at hn2; exact absurd hn2 id
      | sum ds q => rw [hk, hm] at hn2; exact absurd hn2 id
      | product ds =>
      rw [hk, hm] at hn2
      obtain rfl := hn2
      have hch : N.ch n = cs := by simp [Net.ch, hk]
      rw [hch] at hg hy hgy
      simp only [hk] at hc0 ⊢
      rw [mapM_eq_some hg, mapM_eq_some hy]
      refine ⟨_, _, rfl, rfl, ?_⟩
      have := prod_perturbed (δ := δ) (count := count) cs (.fin 0) (.fin 0) 0 (by simp [Within]) hgy
      simp only [prodCompute, XR.g_add, XR.g_ofInt, Int.cast_zero]
      refine this.mono ?_
      rw [zero_add]
      exact mul_le_mul_of_nonneg_left (by exact_mod_cast hc0) hδ

/-- In a decomposable network there are at most the number of variables times twice the height plus one. -/
theorem count_scope [DecidableEq ι] {N : Net ι XR} {S : ι} {rank : ι → ℕ} (hrank : ∀ u, ∀ c ∈ N.ch u, rank c < rank u) (hdec : IsDecomposable N S)
    (hsc : ∀ n, Reach N.ch S n → ∃ v, InScope N n v) : ParamCount N S fun n => scopeSize N n * (2 * rank n + 1) := by
  have h := cost_scope hrank hdec hsc
  intro n hn
  have := h n hn
  cases hk : N.kind n with
  | leaf l => simpa [hk] using this
  | sum cs w => simpa [hk] using this
  | product cs =>
    simp only [hk] at this ⊢
    refine le_trans (List.sum_le_sum fun c _ => ?_) this
    omega

end Gospn
