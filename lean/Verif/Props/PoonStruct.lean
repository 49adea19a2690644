/-
The structure learning of learn/poon: C76.
-/
import Verif.Proofs.PoonInit
import Verif.Spec.Structure

set_option linter.unusedSectionVars false
set_option linter.unusedSimpArgs false

namespace Gospn
open Spec GoFloat

/-! ### Whatever the arithmetic does -/

theorem poon_regions {F : Type} [GoFloat F] {pick : Nat → Nat → Nat} {infer : VarSet → PState F → PNode → Option (PNode → Option F)} {D : List VarSet} {w h m g r : Nat}
    {S : PNode} {st : PState F} (hrun : poonStructure pick infer D w h m g r = some (S, st)) : RegionsOk w h st.L ∧ S.rect = ⟨0, 0, w, h⟩ ∧ ∀ d, S ≠ .prod d := by
  unfold poonStructure at hrun
  obtain ⟨L, hL, hrun⟩ := Option.bind_eq_some_iff.1 hrun
  obtain ⟨st', hst, hrun⟩ := Option.bind_eq_some_iff.1 hrun
  obtain ⟨R, hR, hrun⟩ := Option.bind_eq_some_iff.1 hrun
  obtain ⟨n, hn, hrun⟩ := Option.map_eq_some_iff.1 hrun
  cases hrun
  refine ⟨foldlM_keeps (P := fun (s : PState F) => RegionsOk w h s.L) _ _ (fun a _ x hx y hy => mapInference_ok hx hy) (createRegions_ok hL) _ hst, ?_⟩
  unfold PRegion.node at hn
  split at hn <;> split at hn <;> cases hn <;> exact ⟨rfl, by simp⟩

/-- C76, for every data set, image size, number of sums and Gaussians per region, resolution, random draws, arithmetic and values of `StoreInference`:
whatever `Structure` returns is a graph without cycles in which every product has two children about the two sides of a cut through the region of the
product, so that the network is decomposable; all variables are pixels of the image; all weights are 1; and if no reachable sum lacks children, then the
network is complete and its variables are all pixels. Missing: that no reachable sum lacks children, which is false (`C76_refuted`). -/
theorem C76_structure_partial {F : Type} [GoFloat F] (pick : Nat → Nat → Nat) (infer : VarSet → PState F → PNode → Option (PNode → Option F)) (D : List VarSet)
    (w h m g r : Nat) (S : PNode) (st : PState F) (hrun : poonStructure pick infer D w h m g r = some (S, st)) :
    Acyclic (st.net w).ch ∧ IsDecomposable (st.net w) S ∧
    (∀ n cs, Reach (st.net w).ch S n → (st.net w).kind n = .product cs → ∃ k p q a b, SplitOf k p q ∧ cs = [a, b] ∧
      (∀ v, InScope (st.net w) a v → PixelIn w p v) ∧ ∀ v, InScope (st.net w) b v → PixelIn w q v) ∧
    (∀ v, InScope (st.net w) S v → PixelIn w ⟨0, 0, w, h⟩ v) ∧
    (∀ n cs ws, (st.net w).kind n = .sum cs ws → ws = cs.map fun _ => ofInt 1) ∧
    (LeavesAreLeaves (st.net w) S → IsComplete (st.net w) S ∧ ∀ v, InScope (st.net w) S v ↔ PixelIn w ⟨0, 0, w, h⟩ v) := by
  obtain ⟨hok, hrect, hS⟩ := poon_regions hrun
  have hprod : ∀ n cs, Reach (st.net w).ch S n → (st.net w).kind n = .product cs → ∃ d, n = .prod d ∧ cs = [st.inner d.p d.r, st.inner d.q d.s] ∧
      SplitOf (PNode.prod d).rect d.p d.q := by
    intro n cs hn hk
    cases n with
    | gauss k i =>
      rcases net_gauss_cases st w k i with ⟨R, gs, g, h1, h2, h3⟩ | h4
      · rw [net_gauss h1 h2 h3] at hk; cases hk
      · rw [h4] at hk; cases hk
    | sum k i =>
      rcases net_sum_cases st w k i with ⟨R, ss, kids, h1, h2, h3, h4⟩ | h4 <;> rw [h4] at hk <;> cases hk
    | prod d =>
      cases hk
      exact ⟨d, rfl, rfl, prod_parent hok hS hn⟩
  have hin : ∀ k i v, InScope (st.net w) (st.inner k i) v → PixelIn w k v := by
    intro k i v hv
    obtain ⟨x, y, a1, a2, a3, a4, _, _, a7⟩ := scope_inside hok hv
    rw [inner_rect] at a1 a2 a3 a4
    exact ⟨x, y, a1, a2, a3, a4, a7⟩
  have hall : ∀ n v, InScope (st.net w) n v → PixelIn w n.rect v := by
    intro n v hv
    obtain ⟨x, y, a1, a2, a3, a4, _, _, a7⟩ := scope_inside hok hv
    exact ⟨x, y, a1, a2, a3, a4, a7⟩
  refine ⟨poon_acyclic hok, ?_, ?_, ?_, ?_, ?_⟩
  · intro n hn cs hk
    obtain ⟨d, rfl, rfl, hd⟩ := hprod n cs hn hk
    simp only [List.pairwise_cons, List.mem_singleton, List.not_mem_nil, false_implies, implies_true, List.Pairwise.nil, and_true, forall_eq]
    exact fun v => split_disjoint hok hd v
  · intro n cs hn hk
    obtain ⟨d, rfl, rfl, hd⟩ := hprod n cs hn hk
    exact ⟨_, d.p, d.q, _, _, hd, rfl, hin _ _, hin _ _⟩
  · intro v hv
    rw [← hrect]
    exact hall S v hv
  · intro n cs ws hk
    cases n with
    | gauss k i =>
      rcases net_gauss_cases st w k i with ⟨R, gs, g, h1, h2, h3⟩ | h4
      · rw [net_gauss h1 h2 h3] at hk; cases hk
      · rw [h4] at hk; cases hk; rfl
    | sum k i =>
      rcases net_sum_cases st w k i with ⟨R, ss, kids, h1, h2, h3, h4⟩ | h4
      · rw [h4] at hk
        cases hk
        rw [List.map_map]
        apply List.map_congr_left
        intro c hc
        exact ((hok k R h1).kids ss h2 kids (List.mem_of_getElem? h3) c hc).2
      · rw [h4] at hk; cases hk; rfl
    | prod d => cases hk
  · intro hfull
    have hscope : ∀ n, Reach (st.net w).ch S n → ∀ v, InScope (st.net w) n v ↔ PixelIn w n.rect v := by
      intro n hn v
      refine ⟨hall n v, ?_⟩
      rintro ⟨x, y, a1, a2, a3, a4, rfl⟩
      exact scope_full hok hS hfull hn ⟨a1, a2⟩ ⟨a3, a4⟩
    refine ⟨?_, fun v => by rw [hscope S Relation.ReflTransGen.refl v, hrect]⟩
    intro n hn cs ws hk c hc d hd v hv
    have hcs : (st.net w).ch n = cs := by unfold Net.ch; rw [hk]
    have hrc : ∀ c ∈ cs, c.rect = n.rect := by
      intro c hc
      rw [← hcs] at hc
      cases n with
      | gauss k i => rw [child_gauss] at hc; cases hc
      | sum k i =>
        obtain ⟨d, rfl, hd⟩ := child_sum hok hc
        exact split_hull hd
      | prod d => cases hk
    have hr : ∀ c ∈ cs, Reach (st.net w).ch S c := fun c hc => hn.tail (by rw [hcs]; exact hc)
    rw [hscope c (hr c hc) v, hrc c hc] at hv
    rw [hscope d (hr d hd) v, hrc d hd]
    exact hv

/-- With resolution 1 `Structure` panics on every data set that is not empty, for every image of more than one pixel: the slice of decompositions of a
region has no room (poon.go:61-62). -/
theorem C76_resolution_one {F : Type} [GoFloat F] (pick : Nat → Nat → Nat) (infer : VarSet → PState F → PNode → Option (PNode → Option F)) (I : VarSet) (D : List VarSet)
    (w h m g : Nat) (hwh : 1 < w ∧ 0 < h ∨ 0 < w ∧ 1 < h) : poonStructure pick infer (I :: D) w h m g 1 = none := by
  have hno : ∀ (st : PState F) (k : Rect), (∀ R, st.L k = some R → R.best = []) → compMap pick (infer I) st k = none := by
    intro st k hbest
    rw [Option.eq_none_iff_forall_ne_some]
    intro st' hst
    unfold compMap at hst
    obtain ⟨R, hR, hst⟩ := Option.bind_eq_some_iff.1 hst
    have hb := hbest R hR
    split at hst
    · cases hst
    dsimp only at hst
    obtain ⟨ct, _, hst⟩ := Option.bind_eq_some_iff.1 hst
    obtain ⟨D, hD, hst⟩ := Option.bind_eq_some_iff.1 hst
    obtain ⟨cd, hcd, hst⟩ := Option.bind_eq_some_iff.1 hst
    obtain ⟨u, hu, hst⟩ := Option.bind_eq_some_iff.1 hst
    obtain ⟨n, _, hst⟩ := Option.bind_eq_some_iff.1 hst
    obtain ⟨best, hbest, hst⟩ := Option.bind_eq_some_iff.1 hst
    have hub : u.best = [] := by
      refine foldlM_keeps (P := fun (u : Used F) => u.best = []) _ _ ?_ (show R.best = [] from hb) _ hu
      intro x _ u hu u' h'
      unfold usedStep at h'
      split at h'
      · cases h'; exact hu
      obtain ⟨tab, _, h'⟩ := Option.bind_eq_some_iff.1 h'
      dsimp only at h'
      obtain ⟨d, _, h'⟩ := Option.bind_eq_some_iff.1 h'
      obtain ⟨best, hb', h'⟩ := Option.bind_eq_some_iff.1 h'
      unfold setIdx at hb'
      rw [hu] at hb'
      simp at hb'
    unfold setIdx at hbest
    rw [hub] at hbest
    simp at hbest
  rw [Option.eq_none_iff_forall_ne_some]
  intro res hres
  unfold poonStructure at hres
  obtain ⟨L, hL, hres⟩ := Option.bind_eq_some_iff.1 hres
  obtain ⟨st, hst, hres⟩ := Option.bind_eq_some_iff.1 hres
  rw [List.foldlM_cons] at hst
  obtain ⟨s1, h1, _⟩ := Option.bind_eq_some_iff.1 hst
  unfold mapInference at h1
  obtain ⟨s2, h2, h1⟩ := Option.bind_eq_some_iff.1 h1
  obtain ⟨s3, h3, h1⟩ := Option.bind_eq_some_iff.1 h1
  -- no region has room
  have hL0 : ∀ k R, L k = some R → R.best = [] := by
    unfold createRegions at hL
    rw [if_neg (by omega)] at hL
    dsimp only at hL
    have h0 : ∀ (l : List (Rect × Bool)) (L : Rect → Option (PRegion F)), (∀ k R, L k = some R → R.best = []) → ∀ k R, (l.foldl (fun (L : Rect → Option (PRegion F)) (k : Rect × Bool) =>
        Function.update L k.1 (some (if k.2 then createSumRegion 1 else createRegion m 1))) L) k = some R → R.best = [] := by
      intro l
      induction l with
      | nil => exact fun L h => h
      | cons x l ih =>
        intro L hL
        rw [List.foldl_cons]
        apply ih
        intro k R hR
        by_cases hk : k = x.1
        · subst hk
          rw [Function.update_self] at hR
          cases hR
          split <;> rfl
        · rw [Function.update_of_ne hk] at hR
          exact hL k R hR
    refine foldlM_keeps (P := fun (L : Rect → Option (PRegion F)) => ∀ k R, L k = some R → R.best = []) _ _ ?_ (h0 _ _ (fun k R h => by cases h)) _ hL
    intro k hk L hL L' hL' k' R' hR'
    obtain ⟨R, hR, rfl⟩ := Option.map_eq_some_iff.1 hL'
    by_cases hkk : k' = k
    · subst hkk
      rw [Function.update_self] at hR'
      cases hR'
      unfold fineRegion at hR
      split at hR
      · unfold createUnitRegion at hR
        dsimp only at hR
        split at hR
        · cases hR; rfl
        · obtain ⟨Q, _, hR⟩ := Option.bind_eq_some_iff.1 hR
          obtain ⟨gs, _, rfl⟩ := Option.map_eq_some_iff.1 hR
          rfl
      · cases hR; rfl
    · rw [Function.update_of_ne hkk] at hR'
      exact hL k' R' hR'
  have hs2 : ∀ k R, s2.L k = some R → R.best = [] := by
    refine foldlM_keeps (P := fun (s : PState F) => ∀ k R, s.L k = some R → R.best = []) _ _ ?_ (show ∀ k R, L k = some R → R.best = [] from hL0) _ h2
    intro xy _ s hs s' hs' k R hR
    unfold compUnit at hs'
    dsimp only at hs'
    obtain ⟨R0, hR0, hs'⟩ := Option.bind_eq_some_iff.1 hs'
    split at hs'
    · cases hs'
    · obtain ⟨vals, _, rfl⟩ := Option.map_eq_some_iff.1 hs'
      dsimp only at hR
      by_cases hk : k = ⟨xy.1, xy.2, xy.1 + 1, xy.2 + 1⟩
      · subst hk
        rw [Function.update_self] at hR
        cases hR
        exact hs _ R0 hR0
      · rw [Function.update_of_ne hk] at hR
        exact hs k R hR
  have hfine : (fineRects w h 1).filter (fun k => !k.isUnit) = [] := by
    rw [List.filter_eq_nil_iff]
    intro k hk
    have h1 := fine_small hk
    have h2 := fine_within hk
    have : k.isUnit = true := isUnit_iff.2 (by omega)
    simp [this]
  rw [hfine] at h3
  cases h3
  have hne : (coarseRects w h 1).map (·.1) ≠ [] := by
    have hm := mem_coarse (W := w) (H := h) (r := 1) (by omega) (k := ⟨0 * 1, 0 * 1, w * 1, h * 1⟩)
    rw [Nat.mul_one, Nat.mul_one] at hm
    exact List.ne_nil_of_mem (hm.2 ⟨0, w, 0, h, by omega, le_rfl, by omega, le_rfl, by omega, by simp⟩)
  obtain ⟨k, l, hkl⟩ := List.exists_cons_of_ne_nil hne
  rw [hkl, List.foldlM_cons, hno s2 k (hs2 k)] at h1
  cases h1

/-! ### A single instance, exact arithmetic -/

/-- What lies below a node that was chosen, if all regions were given a product. -/
theorem placed_reach {pick : Nat → Nat → Nat} {size : Rect → Nat} {P : Rect → Prop} {st : PState XR} {w : Nat} (hP : ∀ k, P k → Placed pick size P st k) {k : Rect} {i : Nat} {R : PRegion XR}
    (hk : P k) (hR : st.L k = some R) (hi : R.mapIndex = some i) : ∀ n, Reach (st.net w).ch (st.inner k i) n → (∃ k i R, P k ∧ st.L k = some R ∧ R.mapIndex = some i ∧ n = st.inner k i) ∨
      ∃ d S T, n = .prod d ∧ P d.p ∧ P d.q ∧ st.L d.p = some S ∧ S.mapIndex = some d.r ∧ st.L d.q = some T ∧ T.mapIndex = some d.s := by
  intro n hn
  induction hn with
  | refl => exact Or.inl ⟨k, i, R, hk, hR, hi, rfl⟩
  | tail _ hc ih =>
    rcases ih with ⟨k, i, R, hk, hR, hi, rfl⟩ | ⟨d, S, T, rfl, hp, hq, hS, hSm, hT, hTm⟩
    · right
      rcases inner_cases st k i with h | h <;> rw [h] at hc
      · rw [child_gauss] at hc
        cases hc
      · rcases net_sum_cases st w k i with ⟨R', ss, kids, h1, h2, h3, h4⟩ | h4
        · unfold Net.ch at hc
          rw [h4] at hc
          rw [hR] at h1
          cases h1
          obtain ⟨i', d, S, T, g1, g2, g3, _, g5, g6, g7, g8, g9, g10⟩ := (hP k hk).used R ss hR h2
          rw [hi] at g1
          cases g1
          rw [h3] at g2
          cases g2
          simp only [List.map_cons, List.map_nil, List.mem_singleton] at hc
          exact ⟨d, S, T, hc, g5, g6, g7, g8, g9, g10⟩
        · unfold Net.ch at hc
          rw [h4] at hc
          cases hc
    · left
      unfold Net.ch at hc
      rw [net_prod] at hc
      simp only [List.mem_cons, List.not_mem_nil, or_false] at hc
      rcases hc with rfl | rfl
      · exact ⟨d.p, d.r, S, hp, hS, hSm, rfl⟩
      · exact ⟨d.q, d.s, T, hq, hT, hTm, rfl⟩

/-- Everything below a node that was chosen has children, if all regions were given a product. -/
theorem placed_full {pick : Nat → Nat → Nat} {size : Rect → Nat} {P : Rect → Prop} {st : PState XR} {w : Nat} (hP : ∀ k, P k → Placed pick size P st k) {k : Rect} {i : Nat} {R : PRegion XR}
    (hk : P k) (hR : st.L k = some R) (hi : R.mapIndex = some i) : LeavesAreLeaves (st.net w) (st.inner k i) := by
  have key := placed_reach (w := w) hP hk hR hi
  intro n hn ht
  rcases key n hn with ⟨k, i, R, hk, hR, hi, rfl⟩ | ⟨d, S, T, rfl, _⟩
  · obtain ⟨R', i', a, h1, h2, h3, h4⟩ := (hP k hk).map
    rw [hR] at h1
    cases h1
    rw [hi] at h2
    cases h2
    cases hin : R.inner with
    | gauss gs =>
      exfalso
      apply ht
      unfold PRegion.node at h3
      rw [hin] at h3
      dsimp only at h3
      split at h3
      · rename_i hlt
        cases hst : st.inner k i with
        | gauss k' i' =>
          rw [hst] at h3
          cases h3
          unfold Net.type
          rw [net_gauss hR hin (List.getElem?_eq_getElem hlt)]
        | sum k' i' => rw [hst] at h3; cases h3
        | prod d => rw [hst] at h3; cases h3
      · cases h3
    | sums ss =>
      obtain ⟨i', d, S, T, g1, g2, _⟩ := (hP k hk).used R ss hR hin
      rw [hi] at g1
      cases g1
      have hsum : st.inner k i = .sum k i := by
        unfold PRegion.node at h3
        rw [hin] at h3
        dsimp only at h3
        split at h3
        · exact (Option.some.inj h3).symm
        · cases h3
      rw [hsum]
      rcases net_sum_cases st w k i with ⟨R', ss', kids, e1, e2, e3, e4⟩ | e4
      · rw [hR] at e1
        cases e1
        rw [hin] at e2
        cases e2
        rw [g2] at e3
        cases e3
        unfold Net.ch
        rw [e4]
        simp
      · exfalso
        have : (st.net w).kind (.sum k i) = .sum [.prod d] [ofInt 1] := by
          obtain ⟨i1, a1, b1, c1⟩ := R
          dsimp only at hin
          subst hin
          simp [PState.net, hR, g2]
        rw [this] at e4
        cases e4
  · unfold Net.ch
    rw [net_prod]
    simp

/-- The leaves below a node that was chosen are proper normal distributions. -/
theorem placed_leaves {pick : Nat → Nat → Nat} {size : Rect → Nat} {P : Rect → Prop} {st : PState XR} {w : Nat} (hP : ∀ k, P k → Placed pick size P st k) {k : Rect} {i : Nat} {R : PRegion XR}
    (hk : P k) (hR : st.L k = some R) (hi : R.mapIndex = some i) {n : PNode} {l : Leaf XR} (hn : Reach (st.net w).ch (st.inner k i) n) (hl : (st.net w).kind n = .leaf l) :
    ∃ v, ∃ mu sigma : ℝ, 0 < sigma ∧ l = .gaussian v (.fin mu) (.fin sigma) := by
  rcases placed_reach hP hk hR hi n hn with ⟨k, i, R, hk, hR, hi, rfl⟩ | ⟨d, S, T, rfl, _⟩
  · rcases inner_cases st k i with h | h <;> rw [h] at hl
    · cases hin : R.inner with
      | gauss gs =>
        obtain ⟨_, h0, mu, sigma, hs, hg⟩ := (hP k hk).unit R gs hR hin
        rw [hi] at h0
        cases h0
        rw [net_gauss hR hin hg] at hl
        cases hl
        refine ⟨(k.x1 : Int) + (k.y1 : Int) * (w : Int), mu, sigma, hs, rfl⟩
      | sums ss =>
        exfalso
        unfold PState.inner at h
        rw [hR] at h
        obtain ⟨i1, a1, b1, c1⟩ := R
        dsimp only at hin
        subst hin
        cases h
    · exfalso
      rcases net_sum_cases st w k i with ⟨_, _, _, _, _, _, e⟩ | e <;> rw [e] at hl <;> cases hl
  · rw [net_prod] at hl
    cases hl

/-- C76 for a single instance, in exact arithmetic: for every image that consists of more than one block of `r` times `r` pixels (`r` at least 2), every number `m` of
sums and `g ≥ 2` of Gaussians, every instance, and all random draws, `Structure` returns; the root is a sum, no reachable sum or product lacks children, the network
is complete and decomposable and its variables are all pixels, and every reachable leaf is a normal distribution with positive deviation. -/
theorem C76_single_partial (pick : Nat → Nat → Nat) (hpick : GoodPick pick) (infer : VarSet → PState XR → PNode → Option (PNode → Option XR)) (I : VarSet) (w h m g r : Nat)
    (hr : 2 ≤ r) (hw : r ∣ w) (hh : r ∣ h) (hw0 : 0 < w) (hh0 : 0 < h) (hwh : w ≠ r ∨ h ≠ r) (hm : 0 < m) (hg : 2 ≤ g) :
    ∃ S st, poonStructure pick infer [I] w h m g r = some (S, st) ∧ (st.net w).type S = .sum ∧ LeavesAreLeaves (st.net w) S ∧
      IsComplete (st.net w) S ∧ IsDecomposable (st.net w) S ∧ (∀ v, InScope (st.net w) S v ↔ PixelIn w ⟨0, 0, w, h⟩ v) ∧
      ∀ n l, Reach (st.net w).ch S n → (st.net w).kind n = .leaf l → ∃ v, ∃ mu sigma : ℝ, 0 < sigma ∧ l = .gaussian v (.fin mu) (.fin sigma) := by
  obtain ⟨W, rfl⟩ := hw
  obtain ⟨H, rfl⟩ := hh
  rw [Nat.mul_comm r W] at *
  rw [Nat.mul_comm r H] at *
  have hW : 0 < W := Nat.pos_of_mul_pos_right hw0
  have hH : 0 < H := Nat.pos_of_mul_pos_right hh0
  obtain ⟨st, R, hrun, hR, ⟨ss, hin, hlen⟩, hP⟩ := poon_first hpick infer I W H m g r hr hg hm hW hH
  have h1 : sizeOf' (W * r) (H * r) r m ⟨0, 0, W * r, H * r⟩ = 1 := by
    unfold sizeOf'
    rw [if_pos ⟨rfl, by omega⟩]
  rw [h1] at hlen
  have hroot : IsPixel (W * r) (H * r) ⟨0, 0, W * r, H * r⟩ ∨ (⟨0, 0, W * r, H * r⟩ : Rect) ∈ sumRects (W * r) (H * r) r := by
    have := grid_done (W := W) (H := H) (r := r) (by omega) (i := 0) (i' := W) (j := 0) (j' := H) hW le_rfl hH le_rfl
    rwa [Nat.zero_mul] at this
  obtain ⟨i, d, S, T, g1, g2, _, ⟨⟨t, g3⟩, _⟩, _⟩ := (hP _ hroot).used R ss hR hin
  have hi : i = 0 := by
    have := hpick t ss.length (by omega)
    omega
  subst hi
  have hinner : st.inner ⟨0, 0, W * r, H * r⟩ 0 = .sum ⟨0, 0, W * r, H * r⟩ 0 := by
    rcases inner_cases st ⟨0, 0, W * r, H * r⟩ 0 with h | h
    · exfalso
      unfold PState.inner at h
      rw [hR] at h
      obtain ⟨i1, a1, b1, c1⟩ := R
      dsimp only at hin
      subst hin
      cases h
    · exact h
  have hfull := placed_full (w := W * r) hP hroot hR g1
  have hleaf := @placed_leaves _ _ _ _ (W * r) hP _ _ _ hroot hR g1
  rw [hinner] at hfull hleaf
  obtain ⟨_, hdec, _, _, _, hc⟩ := C76_structure_partial pick infer [I] _ _ _ _ _ _ _ hrun
  refine ⟨_, st, hrun, ?_, hfull, (hc hfull).1, hdec, (hc hfull).2, fun n l => hleaf⟩
  have : (st.net (W * r)).kind (.sum ⟨0, 0, W * r, H * r⟩ 0) = .sum [.prod d] [ofInt 1] := by
    obtain ⟨i1, a1, b1, c1⟩ := R
    dsimp only at hin
    subst hin
    simp [PState.net, hR, g2]
  unfold Net.type
  rw [this]

/-- `Structure` can return a sum without children: for an image of one block, two or more sums per region and draws that always give the last. Whatever the instance. -/
theorem C76_refuted (infer : VarSet → PState XR → PNode → Option (PNode → Option XR)) (I : VarSet) (m g r : Nat) (hr : 2 ≤ r) (hm : 2 ≤ m) (hg : 2 ≤ g) :
    ∃ pick S st, GoodPick pick ∧ poonStructure pick infer [I] r r m g r = some (S, st) ∧ (st.net r).kind S = .sum [] [] := by
  have hpick : GoodPick (fun _ n => n - 1) := fun t n hn => Nat.sub_lt hn one_pos
  obtain ⟨st, R, hrun, hR, ⟨ss, hin, hlen⟩, hP⟩ := poon_first hpick infer I 1 1 m g r hr hg (by omega) one_pos one_pos
  have hroot : IsPixel (1 * r) (1 * r) ⟨0, 0, 1 * r, 1 * r⟩ ∨ (⟨0, 0, 1 * r, 1 * r⟩ : Rect) ∈ sumRects (1 * r) (1 * r) r := by
    have := grid_done (W := 1) (H := 1) (r := r) (by omega) (i := 0) (i' := 1) (j := 0) (j' := 1) one_pos le_rfl one_pos le_rfl
    rwa [Nat.zero_mul] at this
  have hs := (hP _ hroot).used R ss hR hin
  rw [Nat.one_mul] at *
  have h1 : sizeOf' r r r m ⟨0, 0, r, r⟩ = m := by
    unfold sizeOf'
    rw [if_neg (by simp)]
  rw [h1] at hlen
  obtain ⟨i, d, S, T, g1, g2, g3, ⟨⟨t, g4⟩, _⟩, _⟩ := hs
  refine ⟨_, _, st, hpick, hrun, ?_⟩
  have h0 : ss[0]? = some [] := by
    have hlt : 0 < ss.length := by omega
    rw [List.getElem?_eq_getElem hlt]
    exact congrArg some (g3 0 _ (by omega) (List.getElem?_eq_getElem hlt))
  obtain ⟨i1, a1, b1, c1⟩ := R
  dsimp only at hin
  subst hin
  simp [PState.net, hR, h0]

/-- An image of 6 times 4 pixels with resolution 2, 20 sums and 4 Gaussians. -/
example : ∃ pick, GoodPick pick ∧ 2 ≤ 2 ∧ 2 ∣ 6 ∧ 2 ∣ 4 ∧ 0 < 6 ∧ 0 < 4 ∧ (6 ≠ 2 ∨ 4 ≠ 2) ∧ 0 < 20 ∧ 2 ≤ 4 := ⟨fun _ n => n - 1, fun t n hn => Nat.sub_lt hn one_pos, by omega⟩

/-- The hypothesis of `C76_structure_partial` holds for such an image. -/
example (infer : VarSet → PState XR → PNode → Option (PNode → Option XR)) (I : VarSet) :
    ∃ S st, poonStructure (fun _ n => n - 1) infer [I] 6 4 20 4 2 = some (S, st) := by
  obtain ⟨S, st, h, _⟩ := C76_single_partial (fun _ n => n - 1) (fun t n hn => Nat.sub_lt hn one_pos) infer I 6 4 20 4 2 le_rfl (by norm_num) (by norm_num) (by norm_num) (by norm_num)
    (by norm_num) (by norm_num) (by norm_num)
  exact ⟨S, st, h⟩

/-- More than one pixel. -/
example : 1 < 3 ∧ 0 < 5 ∨ 0 < 3 ∧ 1 < 5 := by decide

end Gospn
