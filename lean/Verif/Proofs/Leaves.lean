/-
Lemmas for C97: the Gaussian leaves of learned networks.
-/
import Verif.Spec.Leaves
import Verif.Proofs.LearnGD

set_option linter.unusedSectionVars false
set_option linter.unusedSimpArgs false

namespace Gospn
open Spec GoFloat

theorem extractInstance_column (v : Int) (D : List VarSet) : extractInstance v D = column v D := rfl

theorem total_le {α : Type} {f : α → ℝ} {l : List α} {c : ℝ} (h : ∀ x ∈ l, f x ≤ c) : total f l ≤ l.length * c := by
  unfold total
  induction l with
  | nil => simp
  | cons x l ih =>
    have h1 := h x List.mem_cons_self
    have h2 := ih fun x hx => h x (List.mem_cons_of_mem _ hx)
    simp only [List.map_cons, List.sum_cons, List.length_cons, Nat.cast_add, Nat.cast_one]
    linarith

theorem le_total {α : Type} {f : α → ℝ} {l : List α} {c : ℝ} (h : ∀ x ∈ l, c ≤ f x) : l.length * c ≤ total f l := by
  unfold total
  induction l with
  | nil => simp
  | cons x l ih =>
    have h1 := h x List.mem_cons_self
    have h2 := ih fun x hx => h x (List.mem_cons_of_mem _ hx)
    simp only [List.map_cons, List.sum_cons, List.length_cons, Nat.cast_add, Nat.cast_one]
    linarith

theorem le_sampleMean {Q : List Int} (hQ : Q ≠ []) {c : ℝ} (h : ∀ x ∈ Q, c ≤ (x : ℝ)) : c ≤ sampleMean Q := by
  have h0 : (0 : ℝ) < Q.length := by exact_mod_cast List.length_pos_iff.2 hQ
  unfold sampleMean
  rw [le_div_iff₀ h0, mul_comm]
  exact le_total h

theorem sampleMean_le {Q : List Int} (hQ : Q ≠ []) {c : ℝ} (h : ∀ x ∈ Q, (x : ℝ) ≤ c) : sampleMean Q ≤ c := by
  have h0 : (0 : ℝ) < Q.length := by exact_mod_cast List.length_pos_iff.2 hQ
  unfold sampleMean
  rw [div_le_iff₀ h0, mul_comm]
  exact total_le h

/-- A part of the data describes the data. -/
theorem fitted_describes {Q X : List Int} (hQ : Q ≠ []) (h : ∀ x ∈ Q, x ∈ X) : Describes X (sampleMean Q) (fittedSd Q) := by
  refine ⟨?_, ?_, ?_⟩
  · by_contra hc
    push Not at hc
    obtain ⟨m, hm, hmin⟩ : ∃ m ∈ Q, ∀ x ∈ Q, m ≤ x := by
      have hne : Q.toFinset.Nonempty := by
        obtain ⟨x, hx⟩ := List.exists_mem_of_ne_nil Q hQ
        exact ⟨x, List.mem_toFinset.2 hx⟩
      exact ⟨_, List.mem_toFinset.1 (Q.toFinset.min'_mem hne), fun x hx => Finset.min'_le _ _ (List.mem_toFinset.2 hx)⟩
    have := le_sampleMean hQ (c := (m : ℝ)) fun x hx => by exact_mod_cast hmin x hx
    exact absurd (hc m (h m hm)) (not_lt.2 this)
  · by_contra hc
    push Not at hc
    obtain ⟨m, hm, hmax⟩ : ∃ m ∈ Q, ∀ x ∈ Q, x ≤ m := by
      have hne : Q.toFinset.Nonempty := by
        obtain ⟨x, hx⟩ := List.exists_mem_of_ne_nil Q hQ
        exact ⟨x, List.mem_toFinset.2 hx⟩
      exact ⟨_, List.mem_toFinset.1 (Q.toFinset.max'_mem hne), fun x hx => Finset.le_max' _ _ (List.mem_toFinset.2 hx)⟩
    have := sampleMean_le hQ (c := (m : ℝ)) fun x hx => by exact_mod_cast hmax x hx
    exact absurd (hc m (h m hm)) (not_lt.2 this)
  · unfold fittedSd
    split
    · norm_num
    · rename_i h
      exact lt_of_le_of_ne (by unfold sampleSd; exact Real.sqrt_nonneg _) (Ne.symm h)

/-- The mean of a random position among `c.length` is at most the last position. -/
theorem countMean_le {c : List Int} (h : ∀ x ∈ c, 0 < x) (h0 : c ≠ []) : countMean c ≤ c.length - 1 := by
  have hsum : (0 : ℝ) < (c.sum : ℝ) := by exact_mod_cast List.sum_pos _ h h0
  unfold countMean
  rw [div_le_iff₀ hsum]
  have key : ∀ (c : List Int) (k : Nat) (b : ℝ), (∀ x ∈ c, 0 < x) → (k : ℝ) + c.length - 1 ≤ b → total (fun (x : Int × Nat) => (x.1 : ℝ) * x.2) (c.zipIdx k) ≤ b * (c.sum : ℝ) := by
    intro c
    induction c with
    | nil => intro k b _ _; simp [total]
    | cons x c ih =>
      intro k b hc hb
      have h1 := ih (k + 1) b (fun y hy => hc y (List.mem_cons_of_mem _ hy)) (by push_cast at hb ⊢; simp only [List.length_cons] at hb; push_cast at hb; linarith)
      have hx : (0 : ℝ) < x := by exact_mod_cast hc x List.mem_cons_self
      have hk : (k : ℝ) ≤ b := by
        simp only [List.length_cons] at hb
        push_cast at hb
        have : (0 : ℝ) ≤ c.length := Nat.cast_nonneg _
        linarith
      have h2 : (x : ℝ) * k ≤ b * x := by nlinarith
      unfold total at h1 ⊢
      rw [List.zipIdx_cons, List.map_cons, List.sum_cons, List.sum_cons]
      rw [Int.cast_add, mul_add]
      linarith
  exact key c 0 _ h (by simp)

/-! ### learn/poon -/

section
variable {F : Type} [GoFloat F]

/-- Every list of Gaussians in memory is the one that was made of the data. -/
def GaussOf (D : List VarSet) (w g : Nat) (L : Rect → Option (PRegion F)) : Prop :=
  ∀ k R gs, L k = some R → R.inner = .gauss gs → ∃ R₀, createUnitRegion w k.x1 k.y1 g D = some R₀ ∧ R₀.inner = .gauss gs

theorem GaussOf.update {D : List VarSet} {w g : Nat} {L : Rect → Option (PRegion F)} (hL : GaussOf D w g L) {k : Rect} {R : PRegion F}
    (hR : ∀ gs, R.inner = .gauss gs → ∃ R₀, createUnitRegion w k.x1 k.y1 g D = some R₀ ∧ R₀.inner = .gauss gs) : GaussOf D w g (Function.update L k (some R)) := by
  intro k' R' gs hR' hgs
  by_cases hk : k' = k
  · subst hk
    rw [Function.update_self] at hR'
    cases hR'
    exact hR gs hgs
  · rw [Function.update_of_ne hk] at hR'
    exact hL k' R' gs hR' hgs

theorem createRegions_gauss {D : List VarSet} {w h m g r : Nat} {L : Rect → Option (PRegion F)} (hL : createRegions D w h m g r = some L) : GaussOf D w g L := by
  unfold createRegions at hL
  split at hL
  · cases hL
  dsimp only at hL
  refine foldlM_keeps (P := GaussOf D w g) _ _ ?_ ?_ _ hL
  · intro k _ L hL L' hL'
    obtain ⟨R, hR, rfl⟩ := Option.map_eq_some_iff.1 hL'
    refine hL.update fun gs hgs => ?_
    unfold fineRegion at hR
    split at hR
    · exact ⟨R, hR, hgs⟩
    · cases hR
      cases hgs
  · generalize coarseRects w h r = l
    have h0 : GaussOf D w g (fun _ => none : Rect → Option (PRegion F)) := fun k R gs h => by cases h
    revert h0
    generalize (fun _ => none : Rect → Option (PRegion F)) = L0
    induction l generalizing L0 with
    | nil => exact id
    | cons x l ih =>
      intro h0
      rw [List.foldl_cons]
      refine ih _ (h0.update fun gs hgs => ?_)
      split at hgs <;> cases hgs

theorem compMap_gauss {pick : Nat → Nat → Nat} {infer : PState F → PNode → Option (PNode → Option F)} {D : List VarSet} {w g : Nat} {st st' : PState F} {k : Rect}
    (hok : GaussOf D w g st.L) (hst : compMap pick infer st k = some st') : GaussOf D w g st'.L := by
  unfold compMap at hst
  obtain ⟨R, hR, hst⟩ := Option.bind_eq_some_iff.1 hst
  split at hst
  · cases hst
  rename_i ss hss
  dsimp only at hst
  obtain ⟨ct, _, hst⟩ := Option.bind_eq_some_iff.1 hst
  obtain ⟨D', hD, hst⟩ := Option.bind_eq_some_iff.1 hst
  obtain ⟨cd, hcd, hst⟩ := Option.bind_eq_some_iff.1 hst
  obtain ⟨u, hu, hst⟩ := Option.bind_eq_some_iff.1 hst
  obtain ⟨n, _, hst⟩ := Option.bind_eq_some_iff.1 hst
  obtain ⟨best, hbest, hst⟩ := Option.bind_eq_some_iff.1 hst
  obtain ⟨i, _, hst⟩ := Option.bind_eq_some_iff.1 hst
  obtain ⟨o, ho, hst⟩ := Option.bind_eq_some_iff.1 hst
  obtain ⟨bd, _, hst'⟩ := Option.bind_eq_some_iff.1 hst
  clear hst
  have hno : ∀ gs, R.inner = .gauss gs → ∃ R₀, createUnitRegion w k.x1 k.y1 g D = some R₀ ∧ R₀.inner = .gauss gs := by
    intro gs hgs
    rw [hss] at hgs
    cases hgs
  have hok' : GaussOf D w g (Function.update st.L k (some { R with mapIndex := none })) := hok.update hno
  unfold placeProduct at hst'
  dsimp only at hst'
  split at hst'
  · cases hst'
    exact hok'.update hno
  · obtain ⟨_, _, hst⟩ := Option.bind_eq_some_iff.1 hst'
    obtain ⟨_, _, hst⟩ := Option.bind_eq_some_iff.1 hst
    obtain ⟨_, _, hst⟩ := Option.bind_eq_some_iff.1 hst
    obtain ⟨_, _, hst⟩ := Option.bind_eq_some_iff.1 hst
    obtain ⟨kids, hkids, hst⟩ := Option.bind_eq_some_iff.1 hst
    cases hst
    refine hok'.update fun gs hgs => ?_
    cases hgs

theorem compUnit_gauss {D : List VarSet} {w g : Nat} {I : VarSet} {st st' : PState F} {xy : Nat × Nat} (hok : GaussOf D w g st.L) (hst : compUnit w I st xy = some st') : GaussOf D w g st'.L := by
  unfold compUnit at hst
  dsimp only at hst
  obtain ⟨R, hR, hst⟩ := Option.bind_eq_some_iff.1 hst
  split at hst
  · cases hst
  · obtain ⟨vals, _, rfl⟩ := Option.map_eq_some_iff.1 hst
    exact hok.update fun gs hgs => hok _ R gs hR hgs

theorem mapInference_gauss {pick : Nat → Nat → Nat} {infer : VarSet → PState F → PNode → Option (PNode → Option F)} {D : List VarSet} {w h g r : Nat} {st st' : PState F} {I : VarSet}
    (hok : GaussOf D w g st.L) (hst : mapInference pick infer w h r st I = some st') : GaussOf D w g st'.L := by
  unfold mapInference at hst
  obtain ⟨s1, h1, hst⟩ := Option.bind_eq_some_iff.1 hst
  obtain ⟨s2, h2, hst⟩ := Option.bind_eq_some_iff.1 hst
  have k1 := foldlM_keeps (P := fun (s : PState F) => GaussOf D w g s.L) _ _ (fun a _ x hx y hy => compUnit_gauss hx hy) hok _ h1
  have k2 := foldlM_keeps (P := fun (s : PState F) => GaussOf D w g s.L) _ _ (fun a _ x hx y hy => compMap_gauss hx hy) k1 _ h2
  exact foldlM_keeps (P := fun (s : PState F) => GaussOf D w g s.L) _ _ (fun a _ x hx y hy => compMap_gauss hx hy) k2 _ hst

/-- learn/poon/poon.go:106-120: mean and deviation of the Gaussians of a pixel with the values `X`. -/
def poonGauss (X : List Int) (g : Nat) : Option (List (F × F)) :=
  if g = 1 then some [statMuSigma X]
  else (partitionQuantiles (F := F) (X.mergeSort (· ≤ ·)) (g : Int)).bind fun Q => Q.mapM fun q => q[0]?.bind fun a => q[1]?.map fun b => (a, b)

theorem createUnit_gauss {w x y g : Nat} {D : List VarSet} {R : PRegion F} {gs : List (F × F)} (h : createUnitRegion w x y g D = some R) (hg : R.inner = .gauss gs) :
    poonGauss (column ((x : Int) + (y : Int) * (w : Int)) D) g = some gs := by
  unfold createUnitRegion at h
  unfold poonGauss column
  dsimp only at h
  split at h
  · rename_i h1
    rw [if_pos h1]
    cases h
    cases hg
    rfl
  · rename_i h1
    rw [if_neg h1]
    obtain ⟨Q, hQ, h⟩ := Option.bind_eq_some_iff.1 h
    obtain ⟨gs', hgs, rfl⟩ := Option.map_eq_some_iff.1 h
    cases hg
    rw [hQ, Option.bind_some]
    exact hgs

/-- The leaves of what `Structure` of learn/poon returns: the Gaussian number `i` of their pixel. -/
theorem poon_leaves {pick : Nat → Nat → Nat} {infer : VarSet → PState F → PNode → Option (PNode → Option F)} {D : List VarSet} {w h m g r : Nat} {S : PNode} {st : PState F}
    (hrun : poonStructure pick infer D w h m g r = some (S, st)) {n : PNode} {l : Leaf F} (hk : (st.net w).kind n = .leaf l) :
    ∃ (v : Int) (i : Nat) (gs : List (F × F)) (p : F × F), poonGauss (column v D) g = some gs ∧ gs[i]? = some p ∧ l = .gaussian v p.1 p.2 := by
  unfold poonStructure at hrun
  obtain ⟨L, hL, hrun⟩ := Option.bind_eq_some_iff.1 hrun
  obtain ⟨st', hst, hrun⟩ := Option.bind_eq_some_iff.1 hrun
  obtain ⟨R, hR, hrun⟩ := Option.bind_eq_some_iff.1 hrun
  obtain ⟨n', hn, hrun⟩ := Option.map_eq_some_iff.1 hrun
  cases hrun
  have hok : GaussOf D w g st.L := foldlM_keeps (P := fun (s : PState F) => GaussOf D w g s.L) _ _ (fun a _ x hx y hy => mapInference_gauss hx hy) (createRegions_gauss hL) _ hst
  cases n with
  | gauss k i =>
    rcases net_gauss_cases st w k i with ⟨R', gs, p, h1, h2, h3⟩ | h4
    · rw [net_gauss h1 h2 h3] at hk
      cases hk
      obtain ⟨R₀, h5, h6⟩ := hok k R' gs h1 h2
      exact ⟨_, i, gs, p, createUnit_gauss h5 h6, h3, rfl⟩
    · rw [h4] at hk
      cases hk
  | sum k i =>
    rcases net_sum_cases st w k i with ⟨_, _, _, _, _, _, e⟩ | e <;> rw [e] at hk <;> cases hk
  | prod d => rw [net_prod] at hk; cases hk

end

/-- Exact arithmetic, no empty quantile: the Gaussians of consecutive parts of `X`. -/
theorem quantile_gauss {X : List Int} {g : Nat} (hg : 0 < g) (h1 : g ≤ X.length) (h2 : X.length < 2 * g ∨ g * (g - 1) < 2 * X.length) :
    ∃ G : List (List Int), CutsInto g X G ∧ ((partitionQuantiles (F := XR) X (g : Int)).bind fun Q => Q.mapM fun q => q[0]?.bind fun a => q[1]?.map fun b => (a, b)) =
      some (G.map fun Q => (.fin (sampleMean Q), .fin (fittedSd Q))) := by
  obtain ⟨G, hG, hlen, hfl, hne⟩ := C50_partition_partial X g hg
  have hne := hne h1 h2
  refine ⟨G, ⟨hlen, hfl, hne⟩, ?_⟩
  rw [hG, Option.bind_some, mapM_map_comp]
  apply mapM_eq_some
  intro Q hQ
  simp [hne Q hQ, fittedSd]

/-- The parts of a sorted list are in order. -/
theorem inOrder_of_sorted {X : List Int} (hX : X.Pairwise (· ≤ ·)) {G : List (List Int)} (h : G.flatten = X) : InOrder G := by
  subst h
  exact (List.pairwise_flatten.1 hX).2

end Gospn
