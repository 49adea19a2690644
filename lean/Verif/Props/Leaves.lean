/-
Property C97: the Gaussian leaves of a learned network describe the data.
-/
import Verif.Proofs.Leaves
import Verif.Props.LearnGD
import Verif.Proofs.PoonTotal

set_option linter.unusedSectionVars false
set_option linter.unusedSimpArgs false

namespace Gospn
open Spec GoFloat

/-- C97 for learn/dennis, part: if there are at least as many instances as Gaussians and no part of the data is empty, every leaf is the normal distribution fitted to one of `g` consecutive parts into
which the values of its variable are cut, so that its mean lies within the data and its deviation is positive. Missing: fewer instances (`C97_few_refuted`), and that the parts are quantiles
(`C97_order_refuted`). -/
theorem C97_dennis_partial (E : DEnv XR) (D : List VarSet) (sc : Scope) (k : Int) (m g : Nat) (d : XR) (S : DNode) (N : Net DNode XR) (h : dennisStructure E D sc k m g d = some (S, N)) (hg : 0 < g)
    (h1 : g ≤ D.length) (h2 : D.length < 2 * g ∨ g * (g - 1) < 2 * D.length) :
    ∃ G : Int → List (List Int), (∀ v, CutsInto g (column v D) (G v)) ∧ ∀ n l, N.kind n = .leaf l →
      ∃ v, ∃ Q ∈ G v, l = .gaussian v (.fin (sampleMean Q)) (.fin (fittedSd Q)) ∧ Describes (column v D) (sampleMean Q) (fittedSd Q) := by
  have hl : ∀ v, (column v D).length = D.length := fun v => by simp [column]
  have hq := fun v => quantile_gauss (X := column v D) hg (by rw [hl]; exact h1) (by rw [hl]; exact h2)
  refine ⟨fun v => (hq v).choose, fun v => (hq v).choose_spec.1, ?_⟩
  intro n l hk
  obtain ⟨v, i, gs, p, rfl, hgs, hp, rfl⟩ := dennis_leaves h hk
  unfold dennisGauss at hgs
  rw [if_neg (by omega), extractInstance_column, (hq v).choose_spec.2] at hgs
  cases hgs
  obtain ⟨Q, hQ, rfl⟩ := List.mem_map.1 (List.mem_of_getElem? hp)
  have hc := (hq v).choose_spec.1
  refine ⟨v, Q, hQ, rfl, fitted_describes (hc.nonempty Q hQ) fun x hx => ?_⟩
  rw [← hc.all]
  exact List.mem_flatten.2 ⟨Q, hQ, hx⟩

/-- C97 for learn/poon, part: for two or more Gaussians per pixel and data with no empty quantile, every leaf is the normal distribution fitted to one of the `g` quantiles of the values of its pixel.
Missing: one Gaussian per pixel (`C97_one_refuted`). -/
theorem C97_poon_partial (pick : Nat → Nat → Nat) (infer : VarSet → PState XR → PNode → Option (PNode → Option XR)) (D : List VarSet) (w h m g r : Nat) (S : PNode) (st : PState XR)
    (hrun : poonStructure pick infer D w h m g r = some (S, st)) (hg : 2 ≤ g) (h1 : g ≤ D.length) (h2 : D.length < 2 * g ∨ g * (g - 1) < 2 * D.length) :
    ∃ G : Int → List (List Int), (∀ v, (∃ X, X.Perm (column v D) ∧ CutsInto g X (G v)) ∧ InOrder (G v)) ∧ ∀ n l, (st.net w).kind n = .leaf l →
      ∃ v, ∃ Q ∈ G v, l = .gaussian v (.fin (sampleMean Q)) (.fin (fittedSd Q)) ∧ Describes (column v D) (sampleMean Q) (fittedSd Q) := by
  have hl : ∀ v, ((column v D).mergeSort (· ≤ ·)).length = D.length := fun v => by simp [column]
  have hq := fun v => quantile_gauss (g := g) (X := (column v D).mergeSort (· ≤ ·)) (by omega) (by rw [hl]; exact h1) (by rw [hl]; exact h2)
  refine ⟨fun v => (hq v).choose, fun v => ⟨⟨_, List.mergeSort_perm _ _, (hq v).choose_spec.1⟩, ?_⟩, ?_⟩
  · refine inOrder_of_sorted ?_ (hq v).choose_spec.1.all
    have := List.pairwise_mergeSort (le := fun a b : Int => decide (a ≤ b)) (fun a b c h1 h2 => by simp at *; omega) (fun a b => by simp; omega) (column v D)
    simpa using this
  · intro n l hk
    obtain ⟨v, i, gs, p, hgs, hp, rfl⟩ := poon_leaves hrun hk
    unfold poonGauss at hgs
    rw [if_neg (by omega), (hq v).choose_spec.2] at hgs
    cases hgs
    obtain ⟨Q, hQ, rfl⟩ := List.mem_map.1 (List.mem_of_getElem? hp)
    have hc := (hq v).choose_spec.1
    refine ⟨v, Q, hQ, rfl, fitted_describes (hc.nonempty Q hQ) fun x hx => ?_⟩
    have : x ∈ (column v D).mergeSort (· ≤ ·) := by
      rw [← hc.all]
      exact List.mem_flatten.2 ⟨Q, hQ, hx⟩
    exact List.mem_mergeSort.1 this

/-- Refuted for learn/dennis with fewer instances than Gaussians: the values are taken for counts, so that the mean of the leaf is a position in the data set. If all values of a variable exceed the
number of instances, the mean of each of its leaves is smaller than all of them. -/
theorem C97_few_refuted (E : DEnv XR) (D : List VarSet) (n : Nat) (k : Int) (m g : Nat) (d : XR) (hE : GoodEnv E D k) (hne : D ≠ []) (hn : 1 < n) (hc : CompleteVars n D) (hm : 0 < m)
    (hg : D.length < g) (v : Int) (hv : 0 ≤ v ∧ v < n) (hbig : ∀ x ∈ column v D, (D.length : Int) ≤ x) :
    ∃ S N, dennisStructure E D (firstVars n) k m g d = some (S, N) ∧ (∃ y l, Reach N.ch S y ∧ N.kind y = .leaf l ∧ leafVar l = v) ∧
      ∀ y l, N.kind y = .leaf l → leafVar l = v → ∃ mu sigma : ℝ, l = .gaussian v (.fin mu) (.fin sigma) ∧ (∀ x ∈ column v D, mu < x) ∧ ¬ Describes (column v D) mu sigma := by
  obtain ⟨S, N, h1, h2, h3, h4, h5, h6⟩ := dennis_trainable E D n k m g d hE hne hn hc hm (by omega)
  refine ⟨S, N, h1, (h4 v).2 hv, ?_⟩
  intro y l hk hlv
  obtain ⟨u, i, gs, q, rfl, hgs, hq, rfl⟩ := dennis_leaves h1 hk
  have huv : u = v := hlv
  subst huv
  unfold dennisGauss at hgs
  rw [if_pos hg, extractInstance_column] at hgs
  cases hgs
  have hq' := List.mem_of_getElem? hq
  rw [List.mem_singleton] at hq'
  have hlen : (column u D).length = D.length := by simp [column]
  have hD : 0 < D.length := List.length_pos_iff.2 hne
  have hpos : ∀ x ∈ column u D, 0 < x := fun x hx => by
    have := hbig x hx
    omega
  have hcne : column u D ≠ [] := by
    intro h0
    rw [h0] at hlen
    simp at hlen
    omega
  have hsum : (column u D).sum ≠ 0 := (List.sum_pos _ hpos hcne).ne'
  have hlt : ∀ x ∈ column u D, countMean (column u D) < x := by
    intro x hx
    have h7 := countMean_le hpos hcne
    rw [hlen] at h7
    have h8 : ((D.length : Int) : ℝ) ≤ (x : ℝ) := by exact_mod_cast hbig x hx
    push_cast at h8
    linarith
  rw [hq', C60_muSigma, C60_mean _ hsum, C60_stdDev _ (fun x hx => (hpos x hx).le) hsum]
  refine ⟨_, _, rfl, hlt, ?_⟩
  rintro ⟨⟨a, ha, hle⟩, _⟩
  exact absurd (hlt a ha) (not_lt.2 hle)

/-- Refuted for learn/poon with one Gaussian per pixel, for the same reason: if all values of a pixel are at least the number of instances, the mean is smaller than all of them. -/
theorem C97_one_refuted (D : List VarSet) (w h m r : Nat) (hr : 0 < r) (x y : Nat) (hx : x < w) (hy : y < h) (hw : r ∣ w) (hh : r ∣ h) (hne : D ≠ [])
    (hbig : ∀ u ∈ column ((x : Int) + (y : Int) * (w : Int)) D, (D.length : Int) ≤ u) :
    ∃ L R, createRegions (F := XR) D w h m 1 r = some L ∧ L ⟨x, y, x + 1, y + 1⟩ = some R ∧
      ∃ mu sigma : ℝ, R.inner = .gauss [(.fin mu, .fin sigma)] ∧ (∀ u ∈ column ((x : Int) + (y : Int) * (w : Int)) D, mu < u) ∧
        ¬ Describes (column ((x : Int) + (y : Int) * (w : Int)) D) mu sigma := by
  obtain ⟨W, rfl⟩ := hw
  obtain ⟨H, rfl⟩ := hh
  rw [Nat.mul_comm r W] at *
  rw [Nat.mul_comm r H] at *
  generalize hX : column ((x : Int) + (y : Int) * ((W * r : Nat) : Int)) D = X at *
  have hlen : X.length = D.length := by rw [← hX]; simp [column]
  have hD : 0 < D.length := List.length_pos_iff.2 hne
  have hpos : ∀ u ∈ X, 0 < u := fun u hu => by
    have := hbig u hu
    omega
  have hcne : X ≠ [] := by
    intro h0
    rw [h0] at hlen
    simp at hlen
    omega
  have hsum : X.sum ≠ 0 := (List.sum_pos _ hpos hcne).ne'
  have hlt : ∀ u ∈ X, countMean X < u := by
    intro u hu
    have h7 := countMean_le hpos hcne
    rw [hlen] at h7
    have h8 : ((D.length : Int) : ℝ) ≤ (u : ℝ) := by exact_mod_cast hbig u hu
    push_cast at h8
    linarith
  have hfine : ∀ k ∈ fineRects (W * r) (H * r) r, ∃ R, fineRegion (F := XR) D (W * r) m 1 r k = some R := by
    intro k _
    unfold fineRegion
    split
    · unfold createUnitRegion
      exact ⟨_, if_pos rfl⟩
    · exact ⟨_, rfl⟩
  obtain ⟨hf1, hf2⟩ := pixel_fine (W := W) (H := H) (r := r) (by omega) ⟨x, y, hx, hy, rfl⟩
  have hunit : fineRegion (F := XR) D (W * r) m 1 r ⟨x, y, x + 1, y + 1⟩ = some (newRegion (.gauss [statMuSigma X]) 1) := by
    unfold fineRegion
    rw [if_pos hf2]
    unfold createUnitRegion
    dsimp only
    rw [if_pos rfl, ← hX]
    rfl
  obtain ⟨L, hL, hLk⟩ : ∃ L, createRegions (F := XR) D (W * r) (H * r) m 1 r = some L ∧ ∀ k ∈ fineRects (W * r) (H * r) r, L k = fineRegion D (W * r) m 1 r k := by
    unfold createRegions
    rw [if_neg (by omega)]
    dsimp only
    exact ⟨_, foldlM_update _ _ _ hfine, fun k hk => if_pos hk⟩
  refine ⟨L, _, hL, (hLk _ hf1).trans hunit, countMean X, countSd X, ?_, hlt, ?_⟩
  · show Inner.gauss [statMuSigma X] = _
    rw [C60_muSigma, C60_mean _ hsum, C60_stdDev _ (fun x hx => (hpos x hx).le) hsum]
  · rintro ⟨⟨a, ha, hle⟩, _⟩
    exact absurd (hlt a ha) (not_lt.2 hle)

theorem drop_pairs (a b : Int) : ∀ (g i : Nat), i ≤ g → (List.replicate g [a, b]).flatten.drop (i * 2) = (List.replicate (g - i) [a, b]).flatten := by
  intro g
  induction g with
  | zero => intro i hi; have : i = 0 := by omega
            subst this; rfl
  | succ g ih =>
    intro i hi
    cases i with
    | zero => rfl
    | succ i =>
      rw [List.replicate_succ, List.flatten_cons, show (i + 1) * 2 = i * 2 + 2 by ring, List.drop_append]
      simp only [List.length_cons, List.length_nil, Nat.add_sub_cancel]
      rw [List.drop_eq_nil_of_le (by simp), List.nil_append, ih i (by omega)]
      congr 2
      omega

/-- Refuted for learn/dennis that the parts are quantiles, because the values are not sorted: if a variable alternates between `a` and `b`, all `g` leaves are the same normal distribution around the
middle of `a` and `b`. -/
theorem C97_order_refuted (E : DEnv XR) (D : List VarSet) (n : Nat) (k : Int) (m g : Nat) (d : XR) (hE : GoodEnv E D k) (hne : D ≠ []) (hn : 1 < n) (hc : CompleteVars n D) (hm : 0 < m)
    (hg : 0 < g) (v a b : Int) (hv : 0 ≤ v ∧ v < n) (hab : a < b) (halt : column v D = (List.replicate g [a, b]).flatten) :
    ∃ S N, dennisStructure E D (firstVars n) k m g d = some (S, N) ∧ (∃ y l, Reach N.ch S y ∧ N.kind y = .leaf l ∧ leafVar l = v) ∧
      ∀ y l, N.kind y = .leaf l → leafVar l = v → l = .gaussian v (.fin (((a : ℝ) + b) / 2)) (.fin (fittedSd [a, b])) := by
  obtain ⟨S, N, h1, h2, h3, h4, h5, h6⟩ := dennis_trainable E D n k m g d hE hne hn hc hm hg
  refine ⟨S, N, h1, (h4 v).2 hv, ?_⟩
  intro y l hk hlv
  obtain ⟨u, i, gs, q, rfl, hgs, hq, rfl⟩ := dennis_leaves h1 hk
  have huv : u = v := hlv
  subst huv
  have hlen : D.length = g * 2 := by
    have := congrArg List.length halt
    simpa [column] using this
  unfold dennisGauss at hgs
  rw [if_neg (by omega), extractInstance_column, halt, partitionQuantiles_eq _ g hg, Option.bind_some] at hgs
  have hgroups : quantGroups (List.replicate g [a, b]).flatten (if (List.replicate g [a, b]).flatten.length < 2 * g then 1 else (2 * (List.replicate g [a, b]).flatten.length + g) / (2 * g)) g =
      List.replicate g [a, b] := by
    have hl : (List.replicate g [a, b]).flatten.length = g * 2 := by simp
    rw [hl, if_neg (by omega), show (2 * (g * 2) + g) / (2 * g) = 2 by
      rw [Nat.div_eq_iff (by omega)]
      omega]
    unfold quantGroups
    rw [hl]
    apply List.ext_getElem
    · simp
    · intro j hj1 hj2
      rw [List.getElem_replicate, List.getElem_map, List.getElem_range, drop_pairs a b g j (by simpa using hj1.le)]
      have hj : j < g := by simpa using hj1
      obtain ⟨t, ht⟩ : ∃ t, g - j = t + 1 := ⟨g - j - 1, by omega⟩
      rw [ht, List.replicate_succ, List.flatten_cons]
      split
      · have : t = 0 := by omega
        subst this
        simp
        omega
      · simp
  rw [hgroups, List.map_replicate, quantStats_eq [a, b] (by simp)] at hgs
  rw [mapM_eq_some (g := fun _ => (XR.fin (sampleMean [a, b]), XR.fin (fittedSd [a, b])))] at hgs
  · cases hgs
    obtain ⟨_, _, rfl⟩ := List.mem_map.1 (List.mem_of_getElem? hq)
    have : sampleMean [a, b] = ((a : ℝ) + b) / 2 := by simp [sampleMean, total]
    rw [this]
  · intro q hq
    rw [List.eq_of_mem_replicate hq]
    rfl

/-! ### The hypotheses hold for small data -/

/-- `C97_dennis_partial`: three instances of two variables, two Gaussians. -/
example : ∃ S N, dennisStructure exampleEnv threeTwo (firstVars 2) 2 3 2 (.fin 0 : XR) = some (S, N) ∧ 2 ≤ threeTwo.length ∧ threeTwo.length < 2 * 2 := by
  obtain ⟨S, N, h, _⟩ := dennis_trainable exampleEnv threeTwo 2 2 3 2 (.fin 0) (exampleEnv_good 2 (by omega)) (by simp [threeTwo]) (by omega) threeTwo_complete (by omega) (by omega)
  exact ⟨S, N, h, by simp [threeTwo], by simp [threeTwo]⟩

/-- Three instances of two variables, the first of which is 100, 101, 102. -/
def bigTwo : List VarSet := (List.range 3).map fun (i : Nat) => (VarSet.empty.set 0 (i + 100)).set 1 i

theorem bigTwo_complete : CompleteVars 2 bigTwo := by
  intro x hx k
  simp only [bigTwo, List.mem_map] at hx
  obtain ⟨i, _, rfl⟩ := hx
  simp only [VarSet.set, VarSet.empty]
  split
  · subst_vars; simp
  · split
    · subst_vars; simp
    · simp; omega

/-- `C97_few_refuted` and `C97_one_refuted`. -/
example : GoodEnv exampleEnv bigTwo 2 ∧ bigTwo ≠ [] ∧ CompleteVars 2 bigTwo ∧ bigTwo.length < 4 ∧ ∀ x ∈ column 0 bigTwo, (bigTwo.length : Int) ≤ x := by
  refine ⟨exampleEnv_fits bigTwo_complete rfl 2 (by omega), by simp [bigTwo], bigTwo_complete, by simp [bigTwo], ?_⟩
  intro x hx
  simp only [column, bigTwo, List.map_map, List.mem_map, List.mem_range] at hx
  obtain ⟨i, _, rfl⟩ := hx
  simp [bigTwo, VarSet.set, VarSet.empty]
  omega

/-- `C97_poon_partial`: two images of six by four pixels, two Gaussians per pixel. -/
example : ∃ S st, poonStructure (fun _ _ => 0) (poonInfer (6 : Nat) fun _ _ => []) [VarSet.empty, VarSet.empty.set 3 7] 6 4 2 2 2 = some (S, (st : PState XR)) := by
  obtain ⟨st, h, _⟩ := poon_total (pick := fun _ _ => 0) (fun _ _ h => h) (fun _ _ => []) [VarSet.empty, VarSet.empty.set 3 7] 3 2 2 2 2 le_rfl (by omega) (by omega) (by omega) le_rfl
    (by simp) (by simp)
  exact ⟨_, st, h⟩

/-- Four instances of two variables, the first of which alternates between 0 and 100. -/
def altTwo : List VarSet := [0, 100, 0, 100].map fun (i : Int) => (VarSet.empty.set 0 i).set 1 5

/-- `C97_order_refuted`, with two Gaussians. -/
example : GoodEnv exampleEnv altTwo 1 ∧ altTwo ≠ [] ∧ CompleteVars 2 altTwo ∧ column 0 altTwo = (List.replicate 2 [(0 : Int), 100]).flatten := by
  have hc : CompleteVars 2 altTwo := by
    intro x hx k
    simp only [altTwo, List.mem_map] at hx
    obtain ⟨i, _, rfl⟩ := hx
    simp only [VarSet.set, VarSet.empty]
    split
    · subst_vars; simp
    · split
      · subst_vars; simp
      · simp; omega
  have en : ∀ x ∈ altTwo, ∀ ks : List Int, ks.Nodup → (∀ k, k ∈ ks ↔ k = 0 ∨ k = 1) → Enumerates x ks := by
    intro x hx ks hnd hks
    refine ⟨hnd, fun k => ?_⟩
    rw [hc x hx, hks]
    omega
  refine ⟨⟨?_, fun _ _ => List.Perm.refl _, ?_, fun t x hx => en x hx _ (by simp [exampleEnv]) (by simp [exampleEnv]; omega),
    fun i t x hx => en x hx _ (by simp [exampleEnv]) (by simp [exampleEnv]), fun t => Nat.mod_lt _ (by omega)⟩, by simp [altTwo], hc, by decide⟩
  · exact (exampleEnv_good 1 (by omega)).km
  · intro h1
    omega

end Gospn
