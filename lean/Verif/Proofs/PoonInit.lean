/-
The regions that learn/poon/poon.go makes of one instance, and their Gaussians. Exact arithmetic.
-/
import Verif.Proofs.PoonRects

set_option linter.unusedSectionVars false
set_option linter.unusedSimpArgs false

namespace Gospn
open Spec GoFloat

/-- Filling a map by a loop that may panic. -/
theorem foldlM_update {α β : Type} [DecidableEq α] (f : α → Option β) : ∀ (l : List α) (L : α → Option β), (∀ k ∈ l, ∃ b, f k = some b) →
    l.foldlM (fun L k => (f k).map fun b => Function.update L k (some b)) L = some fun k => if k ∈ l then f k else L k := by
  intro l
  induction l with
  | nil => intro L _; simp
  | cons x l ih =>
    intro L hl
    obtain ⟨b, hb⟩ := hl x List.mem_cons_self
    rw [List.foldlM_cons, hb]
    simp only [Option.map_some]
    rw [show (some (Function.update L x (some b)) >>= fun L => l.foldlM (fun L k => (f k).map fun b => Function.update L k (some b)) L) =
      l.foldlM (fun L k => (f k).map fun b => Function.update L k (some b)) (Function.update L x (some b)) from rfl,
      ih _ (fun k hk => hl k (List.mem_cons_of_mem _ hk))]
    congr 1
    funext k
    by_cases hkl : k ∈ l
    · rw [if_pos hkl, if_pos (List.mem_cons_of_mem _ hkl)]
    · by_cases hkx : k = x
      · subst hkx
        rw [if_neg hkl, if_pos List.mem_cons_self, Function.update_self, hb]
      · rw [if_neg hkl, if_neg (by simp [hkl, hkx]), Function.update_of_ne hkx]

/-- Filling a map with values that depend on the key. -/
theorem foldl_update {α β γ : Type} [DecidableEq α] (key : γ → α) (f : γ → β) (g : α → β) : ∀ (l : List γ) (L : α → Option β), (∀ x ∈ l, f x = g (key x)) →
    ∀ k, (l.foldl (fun L x => Function.update L (key x) (some (f x))) L) k = if k ∈ l.map key then some (g k) else L k := by
  intro l
  induction l with
  | nil => intro L _ k; simp
  | cons x l ih =>
    intro L hl k
    rw [List.foldl_cons, ih _ (fun x hx => hl x (List.mem_cons_of_mem _ hx)), List.map_cons]
    by_cases hkl : k ∈ l.map key
    · rw [if_pos hkl, if_pos (List.mem_cons_of_mem _ hkl)]
    · by_cases hkx : k = key x
      · subst hkx
        rw [if_neg hkl, if_pos List.mem_cons_self, Function.update_self, hl x List.mem_cons_self]
      · rw [if_neg hkl, if_neg (by simp [List.mem_cons, hkx]; simpa using hkl), Function.update_of_ne hkx]

/-- The Gaussians of a pixel for one instance: a proper one for the first quantile, the others are about no values at all. -/
def UnitGauss (gs : List (XR × XR)) : Prop := ∃ mu sigma n, 0 < sigma ∧ gs = (XR.fin mu, XR.fin sigma) :: List.replicate n (XR.nan, XR.nan)

theorem createUnit_first (w x y g : Nat) (I : VarSet) (hg : 2 ≤ g) :
    ∃ gs, createUnitRegion (F := XR) w x y g [I] = some ⟨.gauss gs, 1, none, []⟩ ∧ UnitGauss gs := by
  unfold createUnitRegion
  dsimp only
  rw [if_neg (by omega), List.map_singleton, List.mergeSort_singleton, partitionQuantiles_eq _ g (by omega), Option.bind_some]
  generalize hv : (I ((x : Int) + (y : Int) * (w : Int))).getD 0 = v
  have hgroups : quantGroups [v] (if [v].length < 2 * g then 1 else (2 * [v].length + g) / (2 * g)) g = [v] :: List.replicate (g - 1) [] := by
    rw [if_pos (by simp; omega)]
    unfold quantGroups
    obtain ⟨n, rfl⟩ : ∃ n, g = n + 1 := ⟨g - 1, by omega⟩
    rw [List.range_succ_eq_map, List.map_cons, List.map_map]
    congr 1
    · simp
    · rw [Nat.add_sub_cancel]
      apply List.ext_getElem
      · simp
      · intro i h1 h2
        simp
  rw [hgroups, List.map_cons, List.map_replicate, quantStats_nil, quantStats_eq [v] (by simp)]
  have hm : ∀ (s : XR) (t : XR) (n : Nat), (([XR.fin (sampleMean [v]), s, t] :: List.replicate n [XR.nan, XR.nan, XR.fin 0]).mapM
      fun (q : List XR) => q[0]?.bind fun a => q[1]?.map fun b => (a, b)) = some ((XR.fin (sampleMean [v]), s) :: List.replicate n (XR.nan, XR.nan)) := by
    intro s t n
    rw [mapM_eq_some (g := fun q => (q[0]?.getD XR.nan, q[1]?.getD XR.nan))]
    · simp
    · intro q hq
      rcases List.mem_cons.1 hq with rfl | hq
      · rfl
      · rw [List.eq_of_mem_replicate hq]
        rfl
  rw [hm, Option.map_some]
  refine ⟨_, rfl, sampleMean [v], _, g - 1, ?_, rfl⟩
  split
  · norm_num
  · rename_i h
    exact lt_of_le_of_ne (by unfold sampleSd; exact Real.sqrt_nonneg _) (Ne.symm h)

/-- The values of the Gaussians of a pixel, and the best of them. -/
theorem unit_values {gs : List (XR × XR)} (hgs : UnitGauss gs) (I : VarSet) (p : Int) :
    ∃ vals a, (gs.mapM fun g => (newGaussianParams p g.1 g.2).value I) = some vals ∧ vals.length = gs.length ∧ vals[0]? = some (XR.fin a) ∧ bestGauss vals = some 0 := by
  obtain ⟨mu, sigma, n, hs, rfl⟩ := hgs
  have hv0 : ∃ a, (newGaussianParams p (XR.fin mu) (XR.fin sigma)).value I = some (XR.fin a) ∧ (I p = none → a = 0) := by
    have hz : GoFloat.eq (XR.fin sigma) (ofInt 0 : XR) = false := by simp [XR.eq, hs.ne']
    cases hI : I p with
    | none => exact ⟨0, by simp only [newGaussianParams, Leaf.value, hz, hI, Bool.false_eq_true, if_false]; rw [XR.g_ofInt, Int.cast_zero], fun _ => rfl⟩
    | some v =>
      refine ⟨Real.log (ProbabilityTheory.gaussianPDFReal mu (variance sigma) v), ?_, by simp⟩
      simp only [newGaussianParams, Leaf.value, hz, hI, Bool.false_eq_true, if_false]
      rw [XR.g_normLogProb, XR.g_ofInt, normLogProb_fin mu sigma _ hs]
  obtain ⟨a, ha, ha0⟩ := hv0
  have hv1 : ∃ b : XR, (newGaussianParams p XR.nan XR.nan).value I = some b ∧ GoFloat.lt (XR.fin a) b = false := by
    have hz : GoFloat.eq XR.nan (ofInt 0 : XR) = false := by simp [XR.eq]
    cases hI : I p with
    | none => exact ⟨.fin 0, by simp only [newGaussianParams, Leaf.value, hz, hI, Bool.false_eq_true, if_false]; rw [XR.g_ofInt, Int.cast_zero], by simp [ha0 hI, XR.lt]⟩
    | some v =>
      refine ⟨GoFloat.normLogProb XR.nan XR.nan (ofInt v), ?_, ?_⟩
      · simp only [newGaussianParams, Leaf.value, hz, hI, Bool.false_eq_true, if_false]
      · simp [XR.normLogProb, XR.log, XR.sub, XR.add, XR.neg, XR.lt]
  obtain ⟨b, hb, hlt⟩ := hv1
  have hrep : ∀ m : Nat, (List.replicate m (XR.nan, XR.nan)).mapM (fun g => (newGaussianParams p g.1 g.2).value I) = some (List.replicate m b) := by
    intro m
    rw [mapM_eq_some (g := fun _ => b)]
    · simp
    · intro q hq
      rw [List.eq_of_mem_replicate hq]
      exact hb
  refine ⟨XR.fin a :: List.replicate n b, a, ?_, by simp, rfl, ?_⟩
  · rw [List.mapM_cons, ha, hrep]
    rfl
  · unfold bestGauss
    rw [List.zipIdx_cons, List.foldl_cons]
    have : ∀ (l : List (XR × Nat)), (∀ x ∈ l, x.1 = b) → (l.foldl (fun (c : Option Nat × XR) x => if c.1.isNone || GoFloat.lt c.2 x.1 then (some x.2, x.1) else c) (some 0, XR.fin a)) = (some 0, XR.fin a) := by
      intro l
      induction l with
      | nil => intro _; rfl
      | cons x l ih =>
        intro hl
        rw [List.foldl_cons, hl x List.mem_cons_self]
        simp only [Option.isNone_some, hlt, Bool.or_self, Bool.false_eq_true, if_false]
        exact ih (fun x hx => hl x (List.mem_cons_of_mem _ hx))
    simp only [Option.isNone_none, Bool.true_or, if_true]
    rw [this]
    intro x hx
    obtain ⟨_, h2, h3⟩ := List.mem_zipIdx hx
    have : x.1 ∈ List.replicate n b := by rw [h3]; exact List.getElem_mem _
    exact List.eq_of_mem_replicate this

/-- During the first instance, while the Gaussians are evaluated: the pixels in `P` are done. -/
structure UnitPass (w h : Nat) (L : Rect → Option (PRegion XR)) (P : Rect → Prop) (st : PState XR) : Prop where
  done : ∀ k, P k → ∃ R a, st.L k = some R ∧ R.mapIndex = some 0 ∧ st.tab (.gauss k 0) = some (.fin a)
  units : ∀ k, IsPixel w h k → ∃ R gs, st.L k = some R ∧ R.inner = .gauss gs ∧ UnitGauss gs
  rest : ∀ k, ¬ IsPixel w h k → st.L k = L k
  counts : ∀ n, st.counts n = none
  made : ∀ d, st.made d = false

theorem zipIdx_update {F : Type} (k : Rect) : ∀ (vals : List F) (s : Nat) (t : PNode → Option F) (n : PNode), ((vals.zipIdx s).foldl (fun (t : PNode → Option F) x => Function.update t (PNode.gauss k x.2) (some x.1)) t) n =
    match n with
    | .gauss k' i => if k' = k ∧ s ≤ i ∧ i < s + vals.length then vals[i - s]? else t n
    | _ => t n := by
  intro vals
  induction vals with
  | nil =>
    intro s t n
    cases n with
    | gauss k' i => dsimp only [List.length_nil]; rw [if_neg (by rintro ⟨_, h1, h2⟩; omega)]; rfl
    | sum k' i => rfl
    | prod d => rfl
  | cons v vals ih =>
    intro s t n
    rw [List.zipIdx_cons, List.foldl_cons, ih]
    cases n with
    | gauss k' i =>
      dsimp only [List.length_cons]
      by_cases h1 : k' = k ∧ s + 1 ≤ i ∧ i < s + 1 + vals.length
      · rw [if_pos h1, if_pos ⟨h1.1, by omega, by omega⟩]
        obtain ⟨j, rfl⟩ : ∃ j, i = s + 1 + j := ⟨i - s - 1, by omega⟩
        rw [show s + 1 + j - (s + 1) = j by omega, show s + 1 + j - s = j + 1 by omega, List.getElem?_cons_succ]
      · rw [if_neg h1]
        by_cases h2 : k' = k ∧ i = s
        · obtain ⟨rfl, rfl⟩ := h2
          rw [Function.update_self, if_pos ⟨rfl, le_rfl, by omega⟩]
          simp
        · rw [Function.update_of_ne (by simpa using h2), if_neg]
          rintro ⟨h3, h4, h5⟩
          apply h1
          refine ⟨h3, ?_, by omega⟩
          by_contra h6
          exact h2 ⟨h3, by omega⟩
    | sum k' i => dsimp only; rw [Function.update_of_ne (by simp)]
    | prod d => dsimp only; rw [Function.update_of_ne (by simp)]

theorem compUnit_first {w h : Nat} {L : Rect → Option (PRegion XR)} {P : Rect → Prop} {st : PState XR} (hst : UnitPass w h L P st) (I : VarSet) {x y : Nat} (hx : x < w) (hy : y < h) :
    ∃ st', compUnit w I st (x, y) = some st' ∧ UnitPass w h L (fun k => P k ∨ k = ⟨x, y, x + 1, y + 1⟩) st' := by
  obtain ⟨R, gs, hR, hgs, hu⟩ := hst.units _ ⟨x, y, hx, hy, rfl⟩
  obtain ⟨vals, a, hv, hlen, hv0, hbest⟩ := unit_values hu I ((x : Int) + (y : Int) * (w : Int))
  have hne : 0 < gs.length := by
    obtain ⟨mu, sigma, n, _, rfl⟩ := hu
    simp
  refine ⟨{ st with L := Function.update st.L ⟨x, y, x + 1, y + 1⟩ (some { R with mapIndex := bestGauss vals }),
                    tab := vals.zipIdx.foldl (fun t z => Function.update t (.gauss ⟨x, y, x + 1, y + 1⟩ z.2) (some z.1)) st.tab }, ?_, ?_⟩
  · unfold compUnit
    dsimp only
    rw [hR, Option.bind_some, hgs]
    dsimp only
    rw [hv, Option.map_some]
  · refine ⟨?_, ?_, ?_, hst.counts, hst.made⟩
    · intro k hk
      by_cases hkk : k = ⟨x, y, x + 1, y + 1⟩
      · subst hkk
        refine ⟨_, a, Function.update_self .., hbest, ?_⟩
        dsimp only
        rw [zipIdx_update]
        dsimp only
        rw [if_pos (by simp; omega)]
        exact hv0
      · have hPk : P k := hk.resolve_right hkk
        obtain ⟨R', b, h1, h2, h3⟩ := hst.done k hPk
        refine ⟨R', b, ?_, h2, ?_⟩
        · dsimp only
          rw [Function.update_of_ne hkk]
          exact h1
        · dsimp only
          rw [zipIdx_update]
          dsimp only
          rw [if_neg (fun h => hkk h.1)]
          exact h3
    · intro k hk
      by_cases hkk : k = ⟨x, y, x + 1, y + 1⟩
      · subst hkk
        exact ⟨_, gs, Function.update_self .., hgs, hu⟩
      · dsimp only
        rw [Function.update_of_ne hkk]
        exact hst.units k hk
    · intro k hk
      have hkk : k ≠ ⟨x, y, x + 1, y + 1⟩ := by
        rintro rfl
        exact hk ⟨x, y, hx, hy, rfl⟩
      dsimp only
      rw [Function.update_of_ne hkk]
      exact hst.rest k hk

theorem units_first {w h : Nat} {L : Rect → Option (PRegion XR)} (I : VarSet) : ∀ (l : List (Nat × Nat)) {P : Rect → Prop} {st : PState XR}, UnitPass w h L P st →
    (∀ xy ∈ l, xy.1 < w ∧ xy.2 < h) →
    ∃ st', l.foldlM (compUnit w I) st = some st' ∧ UnitPass w h L (fun k => P k ∨ ∃ xy ∈ l, k = ⟨xy.1, xy.2, xy.1 + 1, xy.2 + 1⟩) st' := by
  intro l
  induction l with
  | nil =>
    intro P st hst _
    exact ⟨st, rfl, by simpa using hst⟩
  | cons z l ih =>
    intro P st hst hl
    obtain ⟨st1, h1, h2⟩ := compUnit_first hst I (hl z List.mem_cons_self).1 (hl z List.mem_cons_self).2
    obtain ⟨st2, h3, h4⟩ := ih h2 (fun z hz => hl z (List.mem_cons_of_mem _ hz))
    refine ⟨st2, ?_, ?_⟩
    · rw [List.foldlM_cons, h1]
      exact h3
    · have : (fun k : Rect => (P k ∨ k = ⟨z.1, z.2, z.1 + 1, z.2 + 1⟩) ∨ ∃ xy ∈ l, k = ⟨xy.1, xy.2, xy.1 + 1, xy.2 + 1⟩) =
          (fun k => P k ∨ ∃ xy ∈ z :: l, k = ⟨xy.1, xy.2, xy.1 + 1, xy.2 + 1⟩) := by
        funext k
        simp only [List.mem_cons, exists_eq_or_imp, or_assoc]
      rw [← this]
      exact h4

/-- The number of sums of a region: one for the whole image, unless that is a single block. -/
def sizeOf' (w h r m : Nat) (k : Rect) : Nat := if k = ⟨0, 0, w, h⟩ ∧ ¬ (w = r ∧ h = r) then 1 else m

theorem pixel_fine {W H r : Nat} (hr : 0 < r) {k : Rect} (hk : IsPixel (W * r) (H * r) k) : k ∈ fineRects (W * r) (H * r) r ∧ k.isUnit = true := by
  obtain ⟨x, y, hx, hy, rfl⟩ := hk
  refine ⟨mem_fineRects.2 ⟨x / r, ?_, y / r, ?_, ?_⟩, isUnit_iff.2 ⟨rfl, rfl⟩⟩
  · rw [Nat.mul_div_cancel _ hr]
    exact (Nat.div_lt_iff_lt_mul hr).2 hx
  · rw [Nat.mul_div_cancel _ hr]
    exact (Nat.div_lt_iff_lt_mul hr).2 hy
  · have h1 := Nat.div_add_mod x r
    have h2 := Nat.div_add_mod y r
    have h3 := Nat.mod_lt x hr
    have h4 := Nat.mod_lt y hr
    rw [Nat.add_mul, Nat.add_mul, Nat.mul_comm (x / r), Nat.mul_comm (y / r)]
    dsimp only
    omega

/-- What `createRegions` makes of data whose Gaussians are as `Q` says. -/
theorem createRegions_gen (W H m g r : Nat) (D : List VarSet) (hr : 2 ≤ r) (Q : List (XR × XR) → Prop)
    (hunit : ∀ x y, ∃ gs, createUnitRegion (F := XR) (W * r) x y g D = some ⟨.gauss gs, 1, none, []⟩ ∧ Q gs) :
    ∃ L, createRegions (F := XR) D (W * r) (H * r) m g r = some L ∧
    (∀ k, IsPixel (W * r) (H * r) k → ∃ gs, L k = some ⟨.gauss gs, 1, none, []⟩ ∧ Q gs) ∧
    ∀ k ∈ sumRects (W * r) (H * r) r, L k = some ⟨.sums (List.replicate (sizeOf' (W * r) (H * r) r m k) []), stepOf r k, none,
      List.replicate (sizeOf' (W * r) (H * r) r m k) none⟩ := by
  have hr0 : 0 < r := by omega
  have hfine : ∀ k ∈ fineRects (W * r) (H * r) r, ∃ R, fineRegion (F := XR) D (W * r) m g r k = some R := by
    intro k _
    unfold fineRegion
    split
    · obtain ⟨gs, h, _⟩ := hunit k.x1 k.y1
      exact ⟨_, h⟩
    · exact ⟨_, rfl⟩
  unfold createRegions
  rw [if_neg (by omega)]
  dsimp only
  rw [foldlM_update _ _ _ hfine]
  refine ⟨_, rfl, ?_, ?_⟩
  · intro k hk
    obtain ⟨h1, h2⟩ := pixel_fine hr0 hk
    rw [if_pos h1]
    unfold fineRegion
    rw [if_pos h2]
    exact hunit k.x1 k.y1
  · intro k hk
    rcases List.mem_append.1 hk with hk' | hk'
    · obtain ⟨h1, h2⟩ := List.mem_filter.1 hk'
      rw [if_pos h1]
      unfold fineRegion
      have h2 : k.isUnit = false := by simpa using h2
      rw [h2]
      have hs := fine_small h1
      have hsize : sizeOf' (W * r) (H * r) r m k = m := by
        unfold sizeOf'
        rw [if_neg]
        rintro ⟨rfl, h⟩
        apply h
        dsimp only at hs
        have hW := fine_within h1
        dsimp only at hW
        have h3 : 0 < W := by
          rcases Nat.eq_zero_or_pos W with h0 | h0
          · subst h0; simp at hW
          · exact h0
        have h4 : 0 < H := by
          rcases Nat.eq_zero_or_pos H with h0 | h0
          · subst h0; simp at hW
          · exact h0
        have h5 := Nat.mul_le_mul_right r h3
        have h6 := Nat.mul_le_mul_right r h4
        omega
      rw [hsize, stepOf, if_pos hs]
      simp only [Bool.false_eq_true, if_false, createRegion, newRegion, Inner.len, List.length_replicate]
      rw [if_neg (by omega)]
    · have hl := coarse_large hr0 hk'
      have hnf : k ∉ fineRects (W * r) (H * r) r := by
        intro h
        have := fine_small h
        omega
      rw [if_neg hnf]
      rw [foldl_update (fun x : Rect × Bool => x.1) (fun x => if x.2 then createSumRegion r else createRegion m r)
        (fun k => if k = ⟨0, 0, W * r, H * r⟩ then createSumRegion r else createRegion m r) _ _ ?_ k, if_pos hk']
      · have hstep : stepOf r k = r := by
          unfold stepOf
          rw [if_neg (by omega)]
        rw [hstep]
        congr 1
        by_cases hw : k = ⟨0, 0, W * r, H * r⟩
        · have hsize : sizeOf' (W * r) (H * r) r m k = 1 := by
            unfold sizeOf'
            rw [if_pos]
            refine ⟨hw, ?_⟩
            rw [hw] at hl
            dsimp only at hl
            omega
          rw [if_pos hw, hsize]
          simp only [createSumRegion, newRegion, Inner.len, List.length_singleton]
          rw [if_neg (by omega)]
          rfl
        · have hsize : sizeOf' (W * r) (H * r) r m k = m := by
            unfold sizeOf'
            rw [if_neg (fun h => hw h.1)]
          rw [if_neg hw, hsize]
          simp only [createRegion, newRegion, Inner.len, List.length_replicate]
          rw [if_neg (by omega)]
      · rintro ⟨k', b⟩ hx
        obtain ⟨_, hb⟩ := (mem_coarseRects hr0).1 hx
        dsimp only
        by_cases hw : k' = ⟨0, 0, W * r, H * r⟩
        · rw [if_pos hw, hb, decide_eq_true hw, if_pos rfl]
        · rw [if_neg hw, hb, decide_eq_false hw, if_neg (by simp)]

/-- What `createRegions` makes of one instance. -/
theorem createRegions_first (W H m g r : Nat) (I : VarSet) (hr : 2 ≤ r) (hg : 2 ≤ g) : ∃ L, createRegions (F := XR) [I] (W * r) (H * r) m g r = some L ∧
    (∀ k, IsPixel (W * r) (H * r) k → ∃ gs, L k = some ⟨.gauss gs, 1, none, []⟩ ∧ UnitGauss gs) ∧
    ∀ k ∈ sumRects (W * r) (H * r) r, L k = some ⟨.sums (List.replicate (sizeOf' (W * r) (H * r) r m k) []), stepOf r k, none,
      List.replicate (sizeOf' (W * r) (H * r) r m k) none⟩ :=
  createRegions_gen W H m g r [I] hr UnitGauss fun x y => createUnit_first (W * r) x y g I hg

/-- The whole of `Structure` for one instance: all regions are done. -/
theorem poon_first {pick : Nat → Nat → Nat} (hpick : GoodPick pick) (infer : VarSet → PState XR → PNode → Option (PNode → Option XR)) (I : VarSet) (W H m g r : Nat)
    (hr : 2 ≤ r) (hg : 2 ≤ g) (hm : 0 < m) (hW : 0 < W) (hH : 0 < H) :
    ∃ st : PState XR, ∃ R, poonStructure pick infer [I] (W * r) (H * r) m g r = some (.sum ⟨0, 0, W * r, H * r⟩ 0, st) ∧ st.L ⟨0, 0, W * r, H * r⟩ = some R ∧
      (∃ ss, R.inner = .sums ss ∧ ss.length = sizeOf' (W * r) (H * r) r m ⟨0, 0, W * r, H * r⟩) ∧
      ∀ k, IsPixel (W * r) (H * r) k ∨ k ∈ sumRects (W * r) (H * r) r → Placed pick (sizeOf' (W * r) (H * r) r m) (fun k => IsPixel (W * r) (H * r) k ∨ k ∈ sumRects (W * r) (H * r) r) st k := by
  have hr0 : 0 < r := by omega
  obtain ⟨L, hL, hLp, hLs⟩ := createRegions_first W H m g r I hr hg
  have h0 : UnitPass (W * r) (H * r) L (fun _ => False) ⟨L, fun _ => none, fun _ => none, fun _ => false, 0⟩ := by
    refine ⟨by simp, ?_, fun _ _ => rfl, fun _ => rfl, fun _ => rfl⟩
    intro k hk
    obtain ⟨gs, h1, h2⟩ := hLp k hk
    exact ⟨_, gs, h1, rfl, h2⟩
  obtain ⟨st1, hst1, hu⟩ := units_first I ((List.range (W * r)).flatMap fun x => (List.range (H * r)).map fun y => (x, y)) h0 (by
    intro xy hxy
    obtain ⟨x, hx, h⟩ := List.mem_flatMap.1 hxy
    obtain ⟨y, hy, rfl⟩ := List.mem_map.1 h
    exact ⟨List.mem_range.1 hx, List.mem_range.1 hy⟩)
  have hf : FirstPass pick (stepOf r) (sizeOf' (W * r) (H * r) r m) (IsPixel (W * r) (H * r)) (sumRects (W * r) (H * r) r) st1 := by
    refine ⟨?_, ?_, fun k i => hu.counts _, ?_⟩
    · intro k hk
      obtain ⟨R, gs, h1, h2, h3⟩ := hu.units k hk
      have hpos : 0 < gs.length := by
        obtain ⟨mu, sigma, n, _, rfl⟩ := h3
        simp
      obtain ⟨R', a, h4, h5, h6⟩ := hu.done k (by
        right
        obtain ⟨x, y, hx, hy, rfl⟩ := hk
        exact ⟨(x, y), List.mem_flatMap.2 ⟨x, List.mem_range.2 hx, List.mem_map.2 ⟨y, List.mem_range.2 hy, rfl⟩⟩, rfl⟩)
      rw [h1] at h4
      cases h4
      have hin : st1.inner k 0 = .gauss k 0 := by
        unfold PState.inner
        rw [h1]
        obtain ⟨i1, a1, b1, c1⟩ := R
        dsimp only at h2
        subst h2
        rfl
      refine ⟨⟨R, 0, a, h1, h5, ?_, ?_⟩, ?_, ?_⟩
      · rw [hin]
        unfold PRegion.node
        rw [h2]
        dsimp only
        rw [if_pos hpos]
      · rw [hin]
        exact h6
      · intro R' ss hR' hss
        rw [h1] at hR'
        cases hR'
        rw [h2] at hss
        cases hss
      · intro R' gs' hR' hgs'
        rw [h1] at hR'
        cases hR'
        rw [h2] at hgs'
        cases hgs'
        obtain ⟨mu, sigma, n, hs, rfl⟩ := h3
        exact ⟨(pixel_fine hr0 hk).2, h5, mu, sigma, hs, rfl⟩
    · intro k hk
      unfold Fresh
      rw [hu.rest k (sumRects_not_pixel (by omega) hk)]
      exact hLs k hk
    · intro d hd
      rw [hu.made d] at hd
      cases hd
  have hsize : ∀ k, 0 < sizeOf' (W * r) (H * r) r m k := by
    intro k
    unfold sizeOf'
    split <;> omega
  obtain ⟨st2, hst2, hf2⟩ := regions_first hpick (infer := infer I) (sumRects (W * r) (H * r) r) hf (fun k hk => sumRects_not_pixel (by omega) hk)
    (fun k hk => ⟨hsize k, sumRects_splits hr0 hk⟩) (sumRects_order hr0) (fun k hk pq hpq => sumRects_parts hr0 hk hpq)
  have hroot : (⟨0, 0, W * r, H * r⟩ : Rect) ∈ sumRects (W * r) (H * r) r := by
    have := grid_done (W := W) (H := H) hr0 (i := 0) (i' := W) (j := 0) (j' := H) hW le_rfl hH le_rfl
    rw [Nat.zero_mul] at this
    rcases this with ⟨x, y, _, _, h⟩ | h
    · rw [Rect.mk.injEq] at h
      have h5 := Nat.mul_le_mul_right r hW
      omega
    · exact h
  have hP := hf2.done _ (Or.inr hroot)
  obtain ⟨R, i, a, g1, g2, g3, g4⟩ := hP.map
  have hnot : ¬ (⟨0, 0, W * r, H * r⟩ : Rect).isUnit = true := by
    rw [isUnit_iff]
    have h5 := Nat.mul_le_mul_right r hW
    dsimp only
    omega
  cases hin : R.inner with
  | gauss gs => exact absurd (hP.unit R gs g1 hin).1 hnot
  | sums ss =>
    obtain ⟨_, _, _, _, _, _, _, ⟨_, hlen⟩, _⟩ := hP.used R ss g1 hin
    refine ⟨st2, R, ?_, g1, ⟨ss, hin, hlen⟩, hf2.done⟩
    unfold poonStructure
    rw [hL, Option.bind_some]
    have hmap : mapInference pick infer (W * r) (H * r) r ⟨L, fun _ => none, fun _ => none, fun _ => false, 0⟩ I = some st2 := by
      unfold mapInference
      rw [hst1, Option.bind_some]
      unfold sumRects at hst2
      rw [List.foldlM_append] at hst2
      exact hst2
    rw [List.foldlM_cons, hmap]
    simp only [List.foldlM_nil, Option.bind_eq_bind, Option.bind_some, Option.pure_def]
    rw [g1, Option.bind_some]
    unfold PRegion.node
    rw [hin]
    dsimp only
    rw [if_pos (by rw [hlen]; exact hsize _), Option.map_some]

end Gospn
