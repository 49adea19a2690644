/-
Lemmas about the structure built by learn/poon/poon.go from any number of instances, whatever the arithmetic does: every region has a sum with children, and the children of products exist.
-/
import Verif.Proofs.PoonInit

set_option linter.unusedSectionVars false
set_option linter.unusedSimpArgs false

namespace Gospn
open Spec GoFloat
variable {F : Type} [GoFloat F]

/-- The region at `k` has a node at position `i`. -/
def PartOk (L : Rect → Option (PRegion F)) (k : Rect) (i : Nat) : Prop := ∃ R, L k = some R ∧ i < R.inner.len

/-- Both parts of a decomposition exist. -/
def DecOk (L : Rect → Option (PRegion F)) (d : Decomp) : Prop := PartOk L d.p d.r ∧ PartOk L d.q d.s

/-- Some sum of the region at `k` has a child. -/
def HasKid (L : Rect → Option (PRegion F)) (k : Rect) : Prop := ∃ R ss, L k = some R ∧ R.inner = .sums ss ∧ ∃ kids ∈ ss, kids ≠ []

/-- What holds of the memory at any time, besides `RegionsOk`. -/
structure Linked (w h r m : Nat) (st : PState F) : Prop where
  dom : ∀ k R ss, st.L k = some R → R.inner = .sums ss → k ∈ sumRects w h r ∧ (ss.length = 1 ∨ ss.length = m)
  kids : ∀ k R ss, st.L k = some R → R.inner = .sums ss → ∀ kids ∈ ss, ∀ c ∈ kids, DecOk st.L c.1
  best : ∀ k R d, st.L k = some R → some d ∈ R.best → DecOk st.L d
  made : ∀ d k, st.made d = true → SplitOf k d.p d.q → HasKid st.L k

theorem node_len {R : PRegion F} {k : Rect} {i : Nat} {n : PNode} (h : R.node k i = some n) : i < R.inner.len := by
  unfold PRegion.node at h
  unfold Inner.len
  cases hR : R.inner <;> rw [hR] at h <;> dsimp only at h ⊢ <;> split at h <;> first | assumption | cases h

theorem PartOk.update {L : Rect → Option (PRegion F)} {k : Rect} {R R' : PRegion F} (hR : L k = some R) (hl : R'.inner.len = R.inner.len) {k' : Rect} {i : Nat} (h : PartOk L k' i) :
    PartOk (Function.update L k (some R')) k' i := by
  obtain ⟨T, h1, h2⟩ := h
  by_cases hk : k' = k
  · subst hk
    rw [hR] at h1
    cases h1
    exact ⟨R', Function.update_self .., by rw [hl]; exact h2⟩
  · exact ⟨T, by rw [Function.update_of_ne hk]; exact h1, h2⟩

theorem DecOk.update {L : Rect → Option (PRegion F)} {k : Rect} {R R' : PRegion F} (hR : L k = some R) (hl : R'.inner.len = R.inner.len) {d : Decomp} (h : DecOk L d) :
    DecOk (Function.update L k (some R')) d := ⟨h.1.update hR hl, h.2.update hR hl⟩

theorem HasKid.update {L : Rect → Option (PRegion F)} {k : Rect} {R' : PRegion F} (hk : HasKid L k → ∃ ss, R'.inner = .sums ss ∧ ∃ kids ∈ ss, kids ≠ []) {k' : Rect} (h : HasKid L k') :
    HasKid (Function.update L k (some R')) k' := by
  by_cases hk' : k' = k
  · subst hk'
    obtain ⟨ss, h1, h2⟩ := hk h
    exact ⟨R', ss, Function.update_self .., h1, h2⟩
  · obtain ⟨R, ss, h1, h2⟩ := h
    exact ⟨R, ss, by rw [Function.update_of_ne hk']; exact h1, h2⟩

/-- Replacing a region of sums by one with the same sums, of which some may have new children. -/
theorem Linked.region {w h r m : Nat} {st : PState F} (hst : Linked w h r m st) {k : Rect} {R R' : PRegion F} {ss ss' : List (List (Decomp × F))} (hR : st.L k = some R) (hi : R.inner = .sums ss)
    (hi' : R'.inner = .sums ss') (hl : ss'.length = ss.length) (hkids : ∀ kids ∈ ss', ∀ c ∈ kids, DecOk st.L c.1) (hbest : ∀ d, some d ∈ R'.best → DecOk st.L d)
    (hgrow : (∃ kids ∈ ss, kids ≠ []) → ∃ kids ∈ ss', kids ≠ []) (tab counts : PNode → Option F) (made : Decomp → Bool) (draws : Nat)
    (hmade : ∀ d, made d = true → st.made d = true ∨ ((PNode.prod d).rect = k ∧ ∃ kids ∈ ss', kids ≠ [])) :
    Linked w h r m ⟨Function.update st.L k (some R'), tab, counts, made, draws⟩ ∧ ∀ k', HasKid st.L k' → HasKid (Function.update st.L k (some R')) k' := by
  have hlen : R'.inner.len = R.inner.len := by
    rw [hi, hi']
    exact hl
  have hkid : ∀ k', HasKid st.L k' → HasKid (Function.update st.L k (some R')) k' := by
    intro k' hk'
    refine hk'.update fun hk => ?_
    obtain ⟨R0, ss0, h1, h2, h3⟩ := hk
    rw [hR] at h1
    cases h1
    rw [hi] at h2
    cases h2
    exact ⟨ss', hi', hgrow h3⟩
  refine ⟨⟨?_, ?_, ?_, ?_⟩, hkid⟩
  · intro k' T ts hT hts
    dsimp only at hT
    by_cases hk : k' = k
    · subst hk
      rw [Function.update_self] at hT
      cases hT
      rw [hi'] at hts
      cases hts
      rw [hl]
      exact hst.dom _ R ss hR hi
    · rw [Function.update_of_ne hk] at hT
      exact hst.dom k' T ts hT hts
  · intro k' T ts hT hts kids hk c hc
    dsimp only at hT ⊢
    by_cases hk' : k' = k
    · subst hk'
      rw [Function.update_self] at hT
      cases hT
      rw [hi'] at hts
      cases hts
      exact (hkids kids hk c hc).update hR hlen
    · rw [Function.update_of_ne hk'] at hT
      exact (hst.kids k' T ts hT hts kids hk c hc).update hR hlen
  · intro k' T d hT hd
    dsimp only at hT ⊢
    by_cases hk' : k' = k
    · subst hk'
      rw [Function.update_self] at hT
      cases hT
      exact (hbest d hd).update hR hlen
    · rw [Function.update_of_ne hk'] at hT
      exact (hst.best k' T d hT hd).update hR hlen
  · intro d k' hd hs
    dsimp only at hd ⊢
    rcases hmade d hd with h1 | ⟨h1, h2⟩
    · exact hkid k' (hst.made d k' h1 hs)
    · have : k' = k := by rw [← h1, split_hull hs]
      subst this
      exact ⟨R', ss', Function.update_self .., hi', h2⟩

/-- The parts of the candidates exist. -/
theorem cand_parts {st : PState F} {k : Rect} {step : Nat} {z : F} {D : List Decomp × F} (h : (splits k step).foldlM (candStep st) ([], z) = some D) :
    ∀ d ∈ D.1, DecOk st.L d := by
  refine foldlM_keeps (P := fun (a : List Decomp × F) => ∀ d ∈ a.1, DecOk st.L d) (splits k step) ([], z) ?_ (by simp) D h
  intro pq hpq acc hacc acc' h'
  unfold candStep at h'
  obtain ⟨S, hS, h'⟩ := Option.bind_eq_some_iff.1 h'
  obtain ⟨T, hT, h'⟩ := Option.bind_eq_some_iff.1 h'
  obtain ⟨i, _, h'⟩ := Option.bind_eq_some_iff.1 h'
  obtain ⟨j, _, h'⟩ := Option.bind_eq_some_iff.1 h'
  obtain ⟨s, hs, h'⟩ := Option.bind_eq_some_iff.1 h'
  obtain ⟨t, ht, h'⟩ := Option.bind_eq_some_iff.1 h'
  dsimp only at h'
  generalize (if eq (single st.tab s) ninf || eq (single st.tab t) ninf then ninf else add (single st.tab s) (single st.tab t) : F) = v at h'
  have h2 : ∀ d ∈ (if acc.1.isEmpty || lt acc.2 v then (([], v) : List Decomp × F) else acc).1, DecOk st.L d := by
    split
    · simp
    · exact hacc
  generalize (if acc.1.isEmpty || lt acc.2 v then (([], v) : List Decomp × F) else acc) = b at h' h2
  cases h'
  split
  · intro d hd
    rcases List.mem_append.1 hd with hd | hd
    · exact h2 d hd
    · rw [List.mem_singleton] at hd
      subst hd
      exact ⟨⟨S, hS, node_len hs⟩, ⟨T, hT, node_len ht⟩⟩
  · exact h2

theorem compMap_linked {pick : Nat → Nat → Nat} {infer : PState F → PNode → Option (PNode → Option F)} {w h r m : Nat} {st st' : PState F} {k : Rect}
    (hok : RegionsOk w h st.L) (hlk : Linked w h r m st) (hst : compMap pick infer st k = some st') :
    Linked w h r m st' ∧ HasKid st'.L k ∧ ∀ k', HasKid st.L k' → HasKid st'.L k' := by
  unfold compMap at hst
  obtain ⟨R, hR, hst⟩ := Option.bind_eq_some_iff.1 hst
  have hRok := hok k R hR
  split at hst
  · cases hst
  rename_i ss hss
  dsimp only at hst
  obtain ⟨ct, _, hst⟩ := Option.bind_eq_some_iff.1 hst
  obtain ⟨D, hD, hst⟩ := Option.bind_eq_some_iff.1 hst
  obtain ⟨cd, hcd, hst⟩ := Option.bind_eq_some_iff.1 hst
  obtain ⟨u, hu, hst⟩ := Option.bind_eq_some_iff.1 hst
  obtain ⟨n, _, hst⟩ := Option.bind_eq_some_iff.1 hst
  obtain ⟨best, hbest, hst⟩ := Option.bind_eq_some_iff.1 hst
  obtain ⟨i, _, hst⟩ := Option.bind_eq_some_iff.1 hst
  obtain ⟨o, ho, hst⟩ := Option.bind_eq_some_iff.1 hst
  obtain ⟨bd, hbd0, hst'⟩ := Option.bind_eq_some_iff.1 hst
  clear hst
  rename' hst' => hst
  subst hbd0
  -- the memory after the index was reset
  obtain ⟨hlk1, hkid1⟩ := hlk.region (R' := { R with mapIndex := none }) hR hss hss rfl (hlk.kids k R ss hR hss) (fun d hd => hlk.best k R d hR hd) (fun h => h) st.tab st.counts st.made st.draws
    (fun d hd => Or.inl hd)
  have hL1 : Function.update st.L k (some { R with mapIndex := none }) k = some { R with mapIndex := none } := Function.update_self ..
  have hcd' : SplitOf k cd.p cd.q ∧ DecOk (Function.update st.L k (some { R with mapIndex := none })) cd := ⟨cand_splits hD cd (drawFrom_mem hcd), cand_parts hD cd (drawFrom_mem hcd)⟩
  have hu' := used_keep (fun d => SplitOf k d.p d.q ∧ DecOk (Function.update st.L k (some { R with mapIndex := none })) d) hcd'
    (fun kids hk c hc => ⟨(hRok.kids ss hss kids hk c hc).1, hlk1.kids k _ ss hL1 hss kids hk c hc⟩) ⟨fun d hd => ⟨hRok.best d hd, hlk1.best k _ d hL1 hd⟩, by simp⟩ hu
  have hbest' : ∀ d, some d ∈ best → SplitOf k d.p d.q ∧ DecOk (Function.update st.L k (some { R with mapIndex := none })) d := by
    intro d hd
    rcases setIdx_mem hbest hd with hd | hd
    · exact hu'.1 d hd
    · cases hd; exact hcd'
  have hbd := hbest' bd (List.mem_of_getElem? ho)
  unfold placeProduct at hst
  dsimp only at hst
  split at hst
  · rename_i hm
    cases hst
    obtain ⟨hlk2, hkid2⟩ := hlk1.region (R' := { R with mapIndex := some i, best := best }) hL1 hss hss rfl (hlk1.kids k _ ss hL1 hss) (fun d hd => (hbest' d hd).2) (fun h => h)
      (Function.update u.tab n (some (sub D.2 (log (add (single st.counts n) (ofInt 1))))))
      (Function.update st.counts (.prod bd) (some (add (single st.counts (.prod bd)) (ofInt 1)))) st.made (u.draws + 1) (fun d hd => Or.inl hd)
    exact ⟨hlk2, hkid2 k (hkid1 k (hlk.made bd k hm hbd.1)), fun k' h' => hkid2 k' (hkid1 k' h')⟩
  · obtain ⟨_, _, hst⟩ := Option.bind_eq_some_iff.1 hst
    obtain ⟨_, _, hst⟩ := Option.bind_eq_some_iff.1 hst
    obtain ⟨_, _, hst⟩ := Option.bind_eq_some_iff.1 hst
    obtain ⟨_, _, hst⟩ := Option.bind_eq_some_iff.1 hst
    obtain ⟨kids, hkids, hst⟩ := Option.bind_eq_some_iff.1 hst
    cases hst
    have hex : ∃ kids' ∈ ss.set i (kids ++ [(bd, ofInt 1)]), kids' ≠ [] := by
      obtain ⟨hi, _⟩ := List.getElem?_eq_some_iff.1 hkids
      exact ⟨_, List.mem_set hi _, by simp⟩
    obtain ⟨hlk2, hkid2⟩ := hlk1.region (R' := { R with inner := .sums (ss.set i (kids ++ [(bd, ofInt 1)])), mapIndex := some i, best := best }) hL1 hss rfl (by simp) (by
        intro kids' hk c hc
        rcases List.mem_or_eq_of_mem_set hk with hk | rfl
        · exact hlk1.kids k _ ss hL1 hss kids' hk c hc
        · rcases List.mem_append.1 hc with hc | hc
          · exact hlk1.kids k _ ss hL1 hss kids (List.mem_of_getElem? hkids) c hc
          · rw [List.mem_singleton] at hc
            subst hc
            exact hbd.2) (fun d hd => (hbest' d hd).2) (fun _ => hex)
      (Function.update u.tab n (some (sub D.2 (log (add (single st.counts n) (ofInt 1))))))
      (Function.update st.counts (.prod bd) (some (add (single st.counts (.prod bd)) (ofInt 1)))) (Function.update st.made bd true) (u.draws + 1) (by
        intro d hd
        by_cases h : d = bd
        · subst h
          exact Or.inr ⟨split_hull hbd.1, hex⟩
        · rw [Function.update_of_ne h] at hd
          exact Or.inl hd)
    refine ⟨hlk2, ?_, fun k' h' => hkid2 k' (hkid1 k' h')⟩
    exact ⟨_, _, Function.update_self .., rfl, hex⟩

theorem compUnit_linked {w h r m : Nat} {I : VarSet} {st st' : PState F} {xy : Nat × Nat} (hlk : Linked w h r m st) (hst : compUnit w I st xy = some st') :
    Linked w h r m st' ∧ ∀ k', HasKid st.L k' → HasKid st'.L k' := by
  unfold compUnit at hst
  dsimp only at hst
  obtain ⟨R, hR, hst⟩ := Option.bind_eq_some_iff.1 hst
  split at hst
  · cases hst
  rename_i gs hgs
  obtain ⟨vals, _, rfl⟩ := Option.map_eq_some_iff.1 hst
  generalize (⟨xy.1, xy.2, xy.1 + 1, xy.2 + 1⟩ : Rect) = k at *
  have hno : ∀ k', k' = k → ¬ HasKid st.L k' := by
    rintro k' rfl ⟨R0, ss0, h1, h2, _⟩
    rw [hR] at h1
    cases h1
    rw [hgs] at h2
    cases h2
  have hkid : ∀ k', HasKid st.L k' → HasKid (Function.update st.L k (some { R with mapIndex := bestGauss vals })) k' := fun k' h' => h'.update fun hk => absurd hk (hno k rfl)
  refine ⟨⟨?_, ?_, ?_, fun d k' hd hs => hkid k' (hlk.made d k' hd hs)⟩, hkid⟩
  · intro k' T ts hT hts
    dsimp only at hT
    by_cases hk : k' = k
    · subst hk
      rw [Function.update_self] at hT
      cases hT
      rw [hgs] at hts
      cases hts
    · rw [Function.update_of_ne hk] at hT
      exact hlk.dom k' T ts hT hts
  · intro k' T ts hT hts kids hk c hc
    dsimp only at hT ⊢
    by_cases hk' : k' = k
    · subst hk'
      rw [Function.update_self] at hT
      cases hT
      rw [hgs] at hts
      cases hts
    · rw [Function.update_of_ne hk'] at hT
      exact (hlk.kids k' T ts hT hts kids hk c hc).update hR (R' := { R with mapIndex := bestGauss vals }) rfl
  · intro k' T d hT hd
    dsimp only at hT ⊢
    by_cases hk' : k' = k
    · subst hk'
      rw [Function.update_self] at hT
      cases hT
      exact (hlk.best _ R d hR hd).update hR (R' := { R with mapIndex := bestGauss vals }) rfl
    · rw [Function.update_of_ne hk'] at hT
      exact (hlk.best k' T d hT hd).update hR (R' := { R with mapIndex := bestGauss vals }) rfl

/-- A pass over regions of sums gives each a child. -/
theorem regions_linked {pick : Nat → Nat → Nat} {infer : PState F → PNode → Option (PNode → Option F)} {w h r m : Nat} : ∀ (l : List Rect) {st st' : PState F},
    RegionsOk w h st.L → Linked w h r m st → l.foldlM (compMap pick infer) st = some st' →
    RegionsOk w h st'.L ∧ Linked w h r m st' ∧ (∀ k ∈ l, HasKid st'.L k) ∧ ∀ k', HasKid st.L k' → HasKid st'.L k' := by
  intro l
  induction l with
  | nil =>
    intro st st' h1 h2 h3
    cases h3
    exact ⟨h1, h2, by simp, fun _ h => h⟩
  | cons k l ih =>
    intro st st' h1 h2 h3
    rw [List.foldlM_cons] at h3
    obtain ⟨st1, h4, h5⟩ := Option.bind_eq_some_iff.1 h3
    obtain ⟨h6, h7, h8⟩ := compMap_linked h1 h2 h4
    obtain ⟨g1, g2, g3, g4⟩ := ih (compMap_ok h1 h4) h6 h5
    refine ⟨g1, g2, ?_, fun k' h' => g4 k' (h8 k' h')⟩
    intro k' hk'
    rcases List.mem_cons.1 hk' with rfl | hk'
    · exact g4 _ h7
    · exact g3 k' hk'

theorem mapInference_linked {pick : Nat → Nat → Nat} {infer : VarSet → PState F → PNode → Option (PNode → Option F)} {w h r m : Nat} {st st' : PState F} {I : VarSet}
    (hok : RegionsOk w h st.L) (hlk : Linked w h r m st) (hst : mapInference pick infer w h r st I = some st') :
    RegionsOk w h st'.L ∧ Linked w h r m st' ∧ ∀ k ∈ sumRects w h r, HasKid st'.L k := by
  unfold mapInference at hst
  obtain ⟨s1, h1, hst⟩ := Option.bind_eq_some_iff.1 hst
  obtain ⟨s2, h2, hst⟩ := Option.bind_eq_some_iff.1 hst
  obtain ⟨k1, k2⟩ := foldlM_keeps (P := fun (s : PState F) => RegionsOk w h s.L ∧ Linked w h r m s) _ _
    (fun a _ x hx y hy => ⟨compUnit_ok hx.1 hy, (compUnit_linked hx.2 hy).1⟩) ⟨hok, hlk⟩ _ h1
  obtain ⟨g1, g2, g3, _⟩ := regions_linked _ k1 k2 h2
  obtain ⟨e1, e2, e3, e4⟩ := regions_linked _ g1 g2 hst
  refine ⟨e1, e2, ?_⟩
  intro k hk
  rcases List.mem_append.1 hk with hk | hk
  · exact e4 k (g3 k hk)
  · exact e3 k hk

theorem createRegions_dom {D : List VarSet} {w h m g r : Nat} {L : Rect → Option (PRegion F)} (hL : createRegions D w h m g r = some L) :
    ∀ k R, L k = some R → (∀ d, some d ∉ R.best) ∧ ∀ ss, R.inner = .sums ss → (k ∈ sumRects w h r ∧ (ss.length = 1 ∨ ss.length = m)) ∧ ∀ kids ∈ ss, kids = [] := by
  unfold createRegions at hL
  split at hL
  · cases hL
  dsimp only at hL
  have hup : ∀ (L : Rect → Option (PRegion F)) (k : Rect) (R : PRegion F),
      (∀ k R, L k = some R → (∀ d, some d ∉ R.best) ∧ ∀ ss, R.inner = .sums ss → (k ∈ sumRects w h r ∧ (ss.length = 1 ∨ ss.length = m)) ∧ ∀ kids ∈ ss, kids = []) →
      ((∀ d, some d ∉ R.best) ∧ ∀ ss, R.inner = .sums ss → (k ∈ sumRects w h r ∧ (ss.length = 1 ∨ ss.length = m)) ∧ ∀ kids ∈ ss, kids = []) →
      ∀ k' R', Function.update L k (some R) k' = some R' →
        (∀ d, some d ∉ R'.best) ∧ ∀ ss, R'.inner = .sums ss → (k' ∈ sumRects w h r ∧ (ss.length = 1 ∨ ss.length = m)) ∧ ∀ kids ∈ ss, kids = [] := by
    intro L k R h1 h2 k' R' h3
    by_cases hk : k' = k
    · subst hk
      rw [Function.update_self] at h3
      cases h3
      exact h2
    · rw [Function.update_of_ne hk] at h3
      exact h1 k' R' h3
  have hsums : ∀ (n step : Nat) (k : Rect), k ∈ sumRects w h r → (n = 1 ∨ n = m) → (∀ d, some d ∉ ({ (createRegion n r : PRegion F) with step := step } : PRegion F).best) ∧
      ∀ ss, ({ (createRegion n r : PRegion F) with step := step } : PRegion F).inner = .sums ss → (k ∈ sumRects w h r ∧ (ss.length = 1 ∨ ss.length = m)) ∧ ∀ kids ∈ ss, kids = [] := by
    intro n step k hk hn
    refine ⟨fun d => newRegion_best _ _ d, ?_⟩
    intro ss hs
    simp [createRegion, newRegion] at hs
    subst hs
    exact ⟨⟨hk, by simpa using hn⟩, fun kids hk => List.eq_of_mem_replicate hk⟩
  refine foldlM_keeps (P := fun L : Rect → Option (PRegion F) => ∀ k R, L k = some R → (∀ d, some d ∉ R.best) ∧
    ∀ ss, R.inner = .sums ss → (k ∈ sumRects w h r ∧ (ss.length = 1 ∨ ss.length = m)) ∧ ∀ kids ∈ ss, kids = []) _ _ ?_ ?_ _ hL
  · intro k hk L hL L' h'
    obtain ⟨R, hR, rfl⟩ := Option.map_eq_some_iff.1 h'
    apply hup L k R hL
    unfold fineRegion at hR
    split at hR
    · have key : ∀ gs, R = newRegion (.gauss gs) 1 → (∀ d, some d ∉ R.best) ∧ ∀ ss, R.inner = .sums ss → (k ∈ sumRects w h r ∧ (ss.length = 1 ∨ ss.length = m)) ∧ ∀ kids ∈ ss, kids = [] := by
        rintro gs rfl
        refine ⟨fun d => newRegion_best _ _ d, ?_⟩
        intro ss hs
        simp [newRegion] at hs
      unfold createUnitRegion at hR
      dsimp only at hR
      split at hR
      · cases hR
        exact key _ rfl
      · obtain ⟨Q, _, hR⟩ := Option.bind_eq_some_iff.1 hR
        obtain ⟨gs, _, rfl⟩ := Option.map_eq_some_iff.1 hR
        exact key gs rfl
    · rename_i hu
      cases hR
      exact hsums m 1 k (List.mem_append_left _ (List.mem_filter.2 ⟨hk, by simpa using hu⟩)) (Or.inr rfl)
  · have : ∀ (l : List (Rect × Bool)), (∀ x ∈ l, x ∈ coarseRects w h r) → ∀ L : Rect → Option (PRegion F),
        (∀ k R, L k = some R → (∀ d, some d ∉ R.best) ∧ ∀ ss, R.inner = .sums ss → (k ∈ sumRects w h r ∧ (ss.length = 1 ∨ ss.length = m)) ∧ ∀ kids ∈ ss, kids = []) →
        ∀ (k : Rect) (R : PRegion F), l.foldl (fun (L : Rect → Option (PRegion F)) (k : Rect × Bool) => Function.update L k.1 (some (if k.2 then createSumRegion r else createRegion m r))) L k = some R →
          (∀ d, some d ∉ R.best) ∧ ∀ ss, R.inner = .sums ss → (k ∈ sumRects w h r ∧ (ss.length = 1 ∨ ss.length = m)) ∧ ∀ kids ∈ ss, kids = [] := by
      intro l
      induction l with
      | nil => exact fun _ L h => h
      | cons x l ih =>
        intro hl L hL
        rw [List.foldl_cons]
        apply ih (fun x hx => hl x (List.mem_cons_of_mem _ hx))
        have hx : x.1 ∈ sumRects w h r := List.mem_append_right _ (List.mem_map.2 ⟨x, hl x List.mem_cons_self, rfl⟩)
        apply hup L x.1 _ hL
        cases x.2
        · exact hsums m r x.1 hx (Or.inr rfl)
        · exact hsums 1 r x.1 hx (Or.inl rfl)
    exact this _ (fun _ h => h) _ (fun k R h => by cases h)

/-- The memory at the end of `Structure`, for at least one instance. -/
theorem poon_linked {pick : Nat → Nat → Nat} {infer : VarSet → PState F → PNode → Option (PNode → Option F)} {D : List VarSet} {w h m g r : Nat} {S : PNode} {st : PState F}
    (hrun : poonStructure pick infer D w h m g r = some (S, st)) (hD : D ≠ []) :
    Linked w h r m st ∧ (∀ k ∈ sumRects w h r, HasKid st.L k) ∧ ∃ R, st.L ⟨0, 0, w, h⟩ = some R ∧ R.node ⟨0, 0, w, h⟩ 0 = some S := by
  unfold poonStructure at hrun
  obtain ⟨L, hL, hrun⟩ := Option.bind_eq_some_iff.1 hrun
  obtain ⟨st', hst, hrun⟩ := Option.bind_eq_some_iff.1 hrun
  obtain ⟨R, hR, hrun⟩ := Option.bind_eq_some_iff.1 hrun
  obtain ⟨n, hn, hrun⟩ := Option.map_eq_some_iff.1 hrun
  cases hrun
  have h0 : Linked w h r m (⟨L, fun _ => none, fun _ => none, fun _ => false, 0⟩ : PState F) := by
    have hd := createRegions_dom hL
    refine ⟨fun k R ss h1 h2 => ((hd k R h1).2 ss h2).1, ?_, ?_, fun d k h => by cases h⟩
    · intro k R ss h1 h2 kids hk c hc
      rw [((hd k R h1).2 ss h2).2 kids hk] at hc
      cases hc
    · intro k R d h1 h2
      exact absurd h2 ((hd k R h1).1 d)
  obtain ⟨I, D', rfl⟩ := List.exists_cons_of_ne_nil hD
  rw [List.foldlM_cons] at hst
  obtain ⟨st1, h1, h2⟩ := Option.bind_eq_some_iff.1 hst
  obtain ⟨_, h3, h4⟩ := foldlM_keeps (P := fun (s : PState F) => RegionsOk w h s.L ∧ Linked w h r m s ∧ ∀ k ∈ sumRects w h r, HasKid s.L k) _ _
    (fun a _ x hx y hy => mapInference_linked hx.1 hx.2.1 hy) (mapInference_linked (createRegions_ok hL) h0 h1) _ h2
  exact ⟨h3, h4, R, hR, hn⟩

/-- A node that exists. -/
def NodeOk (st : PState F) : PNode → Prop
  | .gauss k i => ∃ R gs, st.L k = some R ∧ R.inner = .gauss gs ∧ i < gs.length
  | .sum k i => ∃ R ss, st.L k = some R ∧ R.inner = .sums ss ∧ i < ss.length
  | .prod d => DecOk st.L d

theorem inner_nodeOk {st : PState F} {k : Rect} {i : Nat} (h : PartOk st.L k i) : NodeOk st (st.inner k i) := by
  obtain ⟨⟨inner, a, b, c⟩, h1, h2⟩ := h
  unfold PState.inner
  rw [h1]
  cases inner with
  | gauss gs => exact ⟨_, gs, h1, rfl, h2⟩
  | sums ss => exact ⟨_, ss, h1, rfl, h2⟩

/-- With one sum per region no node that can be reached lacks children. -/
theorem poon_one {pick : Nat → Nat → Nat} {infer : VarSet → PState F → PNode → Option (PNode → Option F)} {D : List VarSet} {w h g r : Nat} {S : PNode} {st : PState F}
    (hrun : poonStructure pick infer D w h 1 g r = some (S, st)) (hD : D ≠ []) : LeavesAreLeaves (st.net w) S := by
  obtain ⟨hlk, hkid, R, hR, hS⟩ := poon_linked hrun hD
  have hroot : NodeOk st S := by
    unfold PRegion.node at hS
    cases hi : R.inner with
    | gauss gs =>
      rw [hi] at hS
      dsimp only at hS
      split at hS
      · cases hS; exact ⟨R, gs, hR, hi, by assumption⟩
      · cases hS
    | sums ss =>
      rw [hi] at hS
      dsimp only at hS
      split at hS
      · cases hS; exact ⟨R, ss, hR, hi, by assumption⟩
      · cases hS
  have hsum : ∀ k i, NodeOk st (.sum k i) → ∃ kids : List (Decomp × F), kids ≠ [] ∧ (st.net w).kind (.sum k i) = .sum (kids.map fun c => .prod c.1) (kids.map (·.2)) ∧ ∀ c ∈ kids, DecOk st.L c.1 := by
    rintro k i ⟨R, ss, h1, h2, h3⟩
    obtain ⟨h4, h5⟩ := hlk.dom k R ss h1 h2
    obtain ⟨R', ss', h6, h7, kids, h8, h9⟩ := hkid k h4
    rw [h1] at h6
    cases h6
    rw [h2] at h7
    cases h7
    have h5' : ss.length = 1 := by omega
    obtain ⟨kids', rfl⟩ := List.length_eq_one_iff.1 h5'
    rw [List.mem_singleton] at h8
    subst h8
    have hi : i = 0 := by simpa using h3
    subst hi
    refine ⟨kids, h9, ?_, fun c hc => hlk.kids k R [kids] h1 h2 kids (by simp) c hc⟩
    obtain ⟨inner, a, b, c⟩ := R
    dsimp only at h2
    subst h2
    unfold PState.net
    dsimp only
    rw [h1]
    rfl
  have hch : ∀ n, NodeOk st n → (∀ c ∈ (st.net w).ch n, NodeOk st c) ∧ ((st.net w).type n ≠ .leaf → (st.net w).ch n ≠ []) := by
    intro n hn
    cases n with
    | gauss k i =>
      obtain ⟨⟨inner, a, b, c⟩, gs, h1, h2, h3⟩ := hn
      dsimp only at h2
      subst h2
      have hk : (st.net w).kind (.gauss k i) = .leaf (newGaussianParams ((k.x1 : Int) + (k.y1 : Int) * (w : Int)) (gs[i]'h3).1 (gs[i]'h3).2) := by
        unfold PState.net
        dsimp only
        rw [h1]
        dsimp only
        rw [List.getElem?_eq_getElem h3]
      unfold Net.ch Net.type
      rw [hk]
      exact ⟨by simp, fun h => absurd rfl h⟩
    | sum k i =>
      obtain ⟨kids, h1, h2, h3⟩ := hsum k i hn
      unfold Net.ch
      rw [h2]
      refine ⟨?_, fun _ => by simpa using h1⟩
      intro c hc
      obtain ⟨e, he, rfl⟩ := List.mem_map.1 hc
      exact h3 e he
    | prod d =>
      unfold Net.ch PState.net
      dsimp only
      refine ⟨?_, fun _ => by simp⟩
      intro c hc
      rcases List.mem_cons.1 hc with rfl | hc
      · exact inner_nodeOk hn.1
      · rw [List.mem_singleton] at hc
        subst hc
        exact inner_nodeOk hn.2
  have hreach : ∀ n, Reach (st.net w).ch S n → NodeOk st n := by
    intro n hn
    induction hn with
    | refl => exact hroot
    | tail _ hc ih => exact (hch _ ih).1 _ hc
  exact fun n hn => (hch n (hreach n hn)).2

end Gospn
