/-
Lemmas about the structure built by learn/poon/poon.go, whatever the arithmetic does: every decomposition cuts the rectangle of its region in two.
-/
import Verif.Spec.Poon
import Verif.Proofs.LearnShape
import Verif.Proofs.Data

set_option linter.unusedSectionVars false
set_option linter.unusedSimpArgs false

namespace Gospn
open Spec GoFloat
variable {F : Type} [GoFloat F]

/-- What holds of the region at `k` at any time. -/
structure RegionOk (w h : Nat) (k : Rect) (R : PRegion F) : Prop where
  unit : ∀ gs, R.inner = .gauss gs → k.x2 = k.x1 + 1 ∧ k.y2 = k.y1 + 1 ∧ k.x2 ≤ w ∧ k.y2 ≤ h
  kids : ∀ ss, R.inner = .sums ss → ∀ kids ∈ ss, ∀ c ∈ kids, SplitOf k c.1.p c.1.q ∧ c.2 = ofInt 1
  best : ∀ d, some d ∈ R.best → SplitOf k d.p d.q

/-- What holds of the regions at any time. -/
def RegionsOk (w h : Nat) (L : Rect → Option (PRegion F)) : Prop := ∀ k R, L k = some R → RegionOk w h k R

theorem RegionsOk.update {w h : Nat} {L : Rect → Option (PRegion F)} (hL : RegionsOk w h L) {k : Rect} {R : PRegion F} (hR : RegionOk w h k R) :
    RegionsOk w h (Function.update L k (some R)) := by
  intro k' R' h'
  by_cases hk : k' = k
  · subst hk
    rw [Function.update_self] at h'
    cases h'
    exact hR
  · rw [Function.update_of_ne hk] at h'
    exact hL k' R' h'

theorem newRegion_best (inner : Inner F) (r : Nat) (d : Decomp) : some d ∉ (newRegion inner r).best := by
  unfold newRegion
  dsimp only
  split
  · simp
  · simp

theorem sums_ok (w h m r step : Nat) (k : Rect) : RegionOk w h k { (createRegion m r : PRegion F) with step := step } := by
  refine ⟨?_, ?_, ?_⟩
  · intro gs hg
    simp [createRegion, newRegion] at hg
  · intro ss hs kids hk c hc
    simp [createRegion, newRegion] at hs
    subst hs
    rw [List.eq_of_mem_replicate hk] at hc
    cases hc
  · intro d hd
    exact absurd hd (newRegion_best _ _ d)

theorem mem_fineRects {w h r : Nat} {k : Rect} : k ∈ fineRects w h r ↔ ∃ ca < w / r, ∃ cb < h / r,
    ca * r ≤ k.x1 ∧ k.x1 < k.x2 ∧ k.x2 ≤ (ca + 1) * r ∧ cb * r ≤ k.y1 ∧ k.y1 < k.y2 ∧ k.y2 ≤ (cb + 1) * r := by
  unfold fineRects
  simp only [List.mem_flatMap, List.mem_range, List.mem_map]
  constructor
  · rintro ⟨ca, hca, cb, hcb, x, hx, y, hy, i, hi, j, hj, rfl⟩
    refine ⟨ca, hca, cb, hcb, ?_⟩
    simp only [Nat.add_mul]
    omega
  · rintro ⟨ca, hca, cb, hcb, h1, h2, h3, h4, h5, h6⟩
    rw [Nat.add_mul] at h3 h6
    refine ⟨ca, hca, cb, hcb, k.x2 - k.x1 - 1, by omega, k.y2 - k.y1 - 1, by omega, k.x1 - ca * r, by omega, k.y1 - cb * r, by omega, ?_⟩
    cases k
    simp only [Rect.mk.injEq] at *
    omega

theorem fine_within {w h r : Nat} {k : Rect} (hk : k ∈ fineRects w h r) : k.x1 < k.x2 ∧ k.x2 ≤ w ∧ k.y1 < k.y2 ∧ k.y2 ≤ h := by
  obtain ⟨ca, hca, cb, hcb, h1, h2, h3, h4, h5, h6⟩ := mem_fineRects.1 hk
  have a1 : (ca + 1) * r ≤ w / r * r := Nat.mul_le_mul_right _ hca
  have a2 : w / r * r ≤ w := Nat.div_mul_le_self _ _
  have b1 : (cb + 1) * r ≤ h / r * r := Nat.mul_le_mul_right _ hcb
  have b2 : h / r * r ≤ h := Nat.div_mul_le_self _ _
  omega

theorem isUnit_iff {k : Rect} : k.isUnit = true ↔ k.x2 = k.x1 + 1 ∧ k.y2 = k.y1 + 1 := by simp [Rect.isUnit]

theorem fineRegion_ok {D : List VarSet} {w h m g r : Nat} {k : Rect} (hk : k ∈ fineRects w h r) {R : PRegion F} (hR : fineRegion D w m g r k = some R) :
    RegionOk w h k R := by
  unfold fineRegion at hR
  split at hR
  · rename_i hu
    have hu := isUnit_iff.1 hu
    have hw := fine_within hk
    have key : ∀ gs, R = newRegion (.gauss gs) 1 → RegionOk w h k R := by
      rintro gs rfl
      refine ⟨fun _ _ => ⟨hu.1, hu.2, hw.2.1, hw.2.2.2⟩, ?_, ?_⟩
      · intro ss hs
        simp [newRegion] at hs
      · intro d hd
        exact absurd hd (newRegion_best _ _ d)
    unfold createUnitRegion at hR
    dsimp only at hR
    split at hR
    · cases hR
      exact key _ rfl
    · obtain ⟨Q, _, hR⟩ := Option.bind_eq_some_iff.1 hR
      obtain ⟨gs, _, rfl⟩ := Option.map_eq_some_iff.1 hR
      exact key gs rfl
  · cases hR
    exact sums_ok w h m r 1 k

theorem createRegions_ok {D : List VarSet} {w h m g r : Nat} {L : Rect → Option (PRegion F)} (hL : createRegions D w h m g r = some L) : RegionsOk w h L := by
  unfold createRegions at hL
  split at hL
  · cases hL
  dsimp only at hL
  have h0 : RegionsOk w h ((coarseRects w h r).foldl (fun L k =>
      Function.update L k.1 (some (if k.2 then createSumRegion r else createRegion m r))) (fun _ => none) : Rect → Option (PRegion F)) := by
    generalize coarseRects w h r = l
    have : ∀ L : Rect → Option (PRegion F), RegionsOk w h L → RegionsOk w h (l.foldl (fun L k =>
        Function.update L k.1 (some (if k.2 then createSumRegion r else createRegion m r))) L) := by
      induction l with
      | nil => exact fun L h => h
      | cons k l ih =>
        intro L hL
        rw [List.foldl_cons]
        apply ih
        apply hL.update
        cases k.2
        · exact sums_ok w h m r r k.1
        · exact sums_ok w h 1 r r k.1
    exact this _ (fun k R h => by cases h)
  refine foldlM_keeps (P := RegionsOk w h) _ _ ?_ h0 _ hL
  intro k hk L hL L' h'
  obtain ⟨R, hR, rfl⟩ := Option.map_eq_some_iff.1 h'
  exact hL.update (fineRegion_ok hk hR)

theorem mem_cuts {a b step x : Nat} (h : x ∈ cuts a b step) : a < x ∧ x < b := by
  unfold cuts at h
  simp only [List.mem_map, List.mem_range] at h
  obtain ⟨i, hi, rfl⟩ := h
  rcases Nat.eq_zero_or_pos step with h0 | h0
  · subst h0; simp at hi
  have h1 : (i + 1) * step ≤ (b - a - 1) / step * step := Nat.mul_le_mul_right _ hi
  have h2 := Nat.div_mul_le_self (b - a - 1) step
  have h3 : step ≤ (i + 1) * step := Nat.le_mul_of_pos_left _ (Nat.succ_pos i)
  omega

theorem mem_splits {k : Rect} {step : Nat} {pq : Rect × Rect} (h : pq ∈ splits k step) : SplitOf k pq.1 pq.2 := by
  unfold splits at h
  rcases List.mem_append.1 h with h | h
  · obtain ⟨x, hx, rfl⟩ := List.mem_map.1 h
    exact Or.inl ⟨x, (mem_cuts hx).1, (mem_cuts hx).2, rfl, rfl⟩
  · obtain ⟨y, hy, rfl⟩ := List.mem_map.1 h
    exact Or.inr ⟨y, (mem_cuts hy).1, (mem_cuts hy).2, rfl, rfl⟩

/-- The candidates of a region cut its rectangle. -/
theorem cand_splits {st : PState F} {k : Rect} {step : Nat} {z : F} {D : List Decomp × F} (h : (splits k step).foldlM (candStep st) ([], z) = some D) :
    ∀ d ∈ D.1, SplitOf k d.p d.q := by
  refine foldlM_keeps (P := fun (a : List Decomp × F) => ∀ d ∈ a.1, SplitOf k d.p d.q) (splits k step) ([], z) ?_ (by simp) D h
  intro pq hpq acc hacc acc' h'
  unfold candStep at h'
  obtain ⟨S, _, h'⟩ := Option.bind_eq_some_iff.1 h'
  obtain ⟨T, _, h'⟩ := Option.bind_eq_some_iff.1 h'
  obtain ⟨i, _, h'⟩ := Option.bind_eq_some_iff.1 h'
  obtain ⟨j, _, h'⟩ := Option.bind_eq_some_iff.1 h'
  obtain ⟨s, _, h'⟩ := Option.bind_eq_some_iff.1 h'
  obtain ⟨t, _, h'⟩ := Option.bind_eq_some_iff.1 h'
  dsimp only at h'
  generalize (if eq (single st.tab s) ninf || eq (single st.tab t) ninf then ninf else add (single st.tab s) (single st.tab t) : F) = v at h'
  have h2 : ∀ d ∈ (if acc.1.isEmpty || lt acc.2 v then (([], v) : List Decomp × F) else acc).1, SplitOf k d.p d.q := by
    split
    · simp
    · exact hacc
  generalize (if acc.1.isEmpty || lt acc.2 v then (([], v) : List Decomp × F) else acc) = b at h' h2
  cases h'
  split
  · intro d hd
    rcases List.mem_append.1 hd with hd | hd
    · exact h2 d hd
    · rw [List.mem_singleton] at hd
      subst hd
      exact mem_splits hpq
  · exact h2

theorem drawFrom_mem {α : Type} {pick : Nat → Nat → Nat} {t : Nat} {l : List α} {a : α} (h : drawFrom pick t l = some a) : a ∈ l := by
  unfold drawFrom at h
  split at h
  · cases h
  · exact List.mem_of_getElem? h

theorem setIdx_mem {α : Type} {l l' : List α} {i : Nat} {a b : α} (h : setIdx l i a = some l') (hb : b ∈ l') : b ∈ l ∨ b = a := by
  unfold setIdx at h
  split at h
  · cases h
    exact List.mem_or_eq_of_mem_set hb
  · cases h

/-- What holds of the chosen candidate and of the children of the sums holds of the decompositions noted for the sums. -/
theorem used_keep {pick : Nat → Nat → Nat} {infer : PState F → PNode → Option (PNode → Option F)} {st : PState F} {k : Rect} {cd : Decomp} {mp : F}
    (Q : Decomp → Prop) (hcd : Q cd) {ss : List (List (Decomp × F))} (hss : ∀ kids ∈ ss, ∀ c ∈ kids, Q c.1) {u u' : Used F}
    (hu : (∀ d, some d ∈ u.best → Q d) ∧ ∀ d ∈ u.bd, Q d)
    (h : ss.zipIdx.foldlM (usedStep pick infer st k cd mp) u = some u') : (∀ d, some d ∈ u'.best → Q d) ∧ ∀ d ∈ u'.bd, Q d := by
  refine foldlM_keeps (P := fun (u : Used F) => (∀ d, some d ∈ u.best → Q d) ∧ ∀ d ∈ u.bd, Q d) _ u ?_ hu u' h
  intro x hx u hu u' h'
  unfold usedStep at h'
  split at h'
  · cases h'; exact hu
  obtain ⟨tab, _, h'⟩ := Option.bind_eq_some_iff.1 h'
  dsimp only at h'
  have hx' : x.1 ∈ ss := by
    have := List.mem_zipIdx hx
    obtain ⟨_, _, h3⟩ := this
    rw [h3]
    exact List.getElem_mem _
  have hkids := hss _ hx'
  have hfold : ∀ (z : F) (l : List (Decomp × F)) (a : List Decomp × F), (∀ c ∈ l, Q c.1) → (∀ d ∈ a.1, Q d) →
      ∀ d ∈ (l.foldl (childStep tab z) a).1, Q d := by
    intro z l
    induction l with
    | nil => exact fun a _ h => h
    | cons c l ih =>
      intro a hl ha
      rw [List.foldl_cons]
      apply ih _ (fun c hc => hl c (List.mem_cons_of_mem _ hc))
      unfold childStep
      dsimp only
      generalize logSumExpPair z (single tab (.prod c.1)) = v
      have h2 : ∀ d ∈ (if a.1.isEmpty || lt a.2 v then (([], v) : List Decomp × F) else a).1, Q d := by
        split
        · simp
        · exact ha
      generalize (if a.1.isEmpty || lt a.2 v then (([], v) : List Decomp × F) else a) = b at h2
      split
      · intro d hd
        rcases List.mem_append.1 hd with hd | hd
        · exact h2 d hd
        · rw [List.mem_singleton] at hd
          subst hd
          exact hl c List.mem_cons_self
      · exact h2
  have hf := hfold (add (single tab (.sum k x.2)) (log (single st.counts (.sum k x.2)))) x.1 (u.bd, ofInt 0) hkids hu.2
  generalize x.1.foldl (childStep tab (add (single tab (.sum k x.2)) (log (single st.counts (.sum k x.2))))) (u.bd, ofInt 0) = a at h' hf
  generalize (if eq (single tab (.sum k x.2)) ninf then mp else logSumExpPair mp (add (single tab (.sum k x.2)) (log (single st.counts (.sum k x.2)))) : F) = v at h'
  have hf2 : ∀ d ∈ (if st.made cd then a else if a.1.isEmpty || lt a.2 v then ([cd], v) else a).1, Q d := by
    split
    · exact hf
    · split
      · intro d hd
        rw [List.mem_singleton.1 hd]
        exact hcd
      · exact hf
  generalize (if st.made cd then a else if a.1.isEmpty || lt a.2 v then ([cd], v) else a) = b at h' hf2
  obtain ⟨d, hd, h'⟩ := Option.bind_eq_some_iff.1 h'
  obtain ⟨best, hb, h'⟩ := Option.bind_eq_some_iff.1 h'
  cases h'
  refine ⟨?_, hf2⟩
  intro e he
  rcases setIdx_mem hb he with he | he
  · exact hu.1 e he
  · cases he
    exact hf2 d (drawFrom_mem hd)

/-- The decompositions noted for the sums of a region cut its rectangle. -/
theorem used_splits {pick : Nat → Nat → Nat} {infer : PState F → PNode → Option (PNode → Option F)} {st : PState F} {k : Rect} {cd : Decomp} {mp : F}
    (hcd : SplitOf k cd.p cd.q) {ss : List (List (Decomp × F))} (hss : ∀ kids ∈ ss, ∀ c ∈ kids, SplitOf k c.1.p c.1.q) {u u' : Used F}
    (hu : (∀ d, some d ∈ u.best → SplitOf k d.p d.q) ∧ ∀ d ∈ u.bd, SplitOf k d.p d.q)
    (h : ss.zipIdx.foldlM (usedStep pick infer st k cd mp) u = some u') : (∀ d, some d ∈ u'.best → SplitOf k d.p d.q) ∧ ∀ d ∈ u'.bd, SplitOf k d.p d.q :=
  used_keep (fun d => SplitOf k d.p d.q) hcd hss hu h

theorem compMap_ok {pick : Nat → Nat → Nat} {infer : PState F → PNode → Option (PNode → Option F)} {w h : Nat} {st st' : PState F} {k : Rect}
    (hok : RegionsOk w h st.L) (hst : compMap pick infer st k = some st') : RegionsOk w h st'.L := by
  unfold compMap at hst
  obtain ⟨R, hR, hst⟩ := Option.bind_eq_some_iff.1 hst
  have hRok := hok k R hR
  split at hst
  · cases hst
  rename_i ss hss
  dsimp only at hst
  obtain ⟨ct, _, hst⟩ := Option.bind_eq_some_iff.1 hst
  obtain ⟨D, hD, hst⟩ := Option.bind_eq_some_iff.1 hst
  obtain ⟨cd, hcd, hst⟩ := Option.bind_eq_some_iff.1 hst
  obtain ⟨u, hu, hst⟩ := Option.bind_eq_some_iff.1 hst
  obtain ⟨n, _, hst⟩ := Option.bind_eq_some_iff.1 hst
  obtain ⟨best, hbest, hst⟩ := Option.bind_eq_some_iff.1 hst
  obtain ⟨i, _, hst⟩ := Option.bind_eq_some_iff.1 hst
  obtain ⟨o, ho, hst⟩ := Option.bind_eq_some_iff.1 hst
  obtain ⟨bd, hbd0, hst'⟩ := Option.bind_eq_some_iff.1 hst
  clear hst
  rename' hst' => hst
  subst hbd0
  have hcd' : SplitOf k cd.p cd.q := cand_splits hD cd (drawFrom_mem hcd)
  have hu' := used_splits hcd' (fun kids hk c hc => (hRok.kids ss hss kids hk c hc).1) ⟨hRok.best, by simp⟩ hu
  have hbest' : ∀ d, some d ∈ best → SplitOf k d.p d.q := by
    intro d hd
    rcases setIdx_mem hbest hd with hd | hd
    · exact hu'.1 d hd
    · cases hd; exact hcd'
  have hbd : SplitOf k bd.p bd.q := hbest' bd (List.mem_of_getElem? ho)
  have hok' : RegionsOk w h (Function.update st.L k (some { R with mapIndex := none })) := hok.update ⟨hRok.unit, hRok.kids, hRok.best⟩
  unfold placeProduct at hst
  dsimp only at hst
  split at hst
  · cases hst
    exact hok'.update ⟨hRok.unit, hRok.kids, hbest'⟩
  · obtain ⟨_, _, hst⟩ := Option.bind_eq_some_iff.1 hst
    obtain ⟨_, _, hst⟩ := Option.bind_eq_some_iff.1 hst
    obtain ⟨_, _, hst⟩ := Option.bind_eq_some_iff.1 hst
    obtain ⟨_, _, hst⟩ := Option.bind_eq_some_iff.1 hst
    obtain ⟨kids, hkids, hst⟩ := Option.bind_eq_some_iff.1 hst
    cases hst
    refine hok'.update ⟨?_, ?_, hbest'⟩
    · intro gs hg
      cases hg
    · intro ss' hs kids' hk c hc
      cases hs
      rcases List.mem_or_eq_of_mem_set hk with hk | rfl
      · exact hRok.kids ss hss kids' hk c hc
      · rcases List.mem_append.1 hc with hc | hc
        · exact hRok.kids ss hss kids (List.mem_of_getElem? hkids) c hc
        · rw [List.mem_singleton] at hc
          subst hc
          exact ⟨hbd, rfl⟩

theorem compUnit_ok {w h : Nat} {I : VarSet} {st st' : PState F} {xy : Nat × Nat} (hok : RegionsOk w h st.L) (hst : compUnit w I st xy = some st') :
    RegionsOk w h st'.L := by
  unfold compUnit at hst
  dsimp only at hst
  obtain ⟨R, hR, hst⟩ := Option.bind_eq_some_iff.1 hst
  have hRok := hok _ R hR
  split at hst
  · cases hst
  · obtain ⟨vals, _, rfl⟩ := Option.map_eq_some_iff.1 hst
    exact hok.update ⟨hRok.unit, hRok.kids, hRok.best⟩

theorem mapInference_ok {pick : Nat → Nat → Nat} {infer : VarSet → PState F → PNode → Option (PNode → Option F)} {w h r : Nat} {st st' : PState F} {I : VarSet}
    (hok : RegionsOk w h st.L) (hst : mapInference pick infer w h r st I = some st') : RegionsOk w h st'.L := by
  unfold mapInference at hst
  obtain ⟨s1, h1, hst⟩ := Option.bind_eq_some_iff.1 hst
  obtain ⟨s2, h2, hst⟩ := Option.bind_eq_some_iff.1 hst
  have k1 := foldlM_keeps (P := fun (s : PState F) => RegionsOk w h s.L) _ _ (fun a _ x hx y hy => compUnit_ok hx hy) hok _ h1
  have k2 := foldlM_keeps (P := fun (s : PState F) => RegionsOk w h s.L) _ _ (fun a _ x hx y hy => compMap_ok hx hy) k1 _ h2
  exact foldlM_keeps (P := fun (s : PState F) => RegionsOk w h s.L) _ _ (fun a _ x hx y hy => compMap_ok hx hy) k2 _ hst

/-! ### The network -/

theorem net_gauss {st : PState F} {w : Nat} {k : Rect} {i : Nat} {R : PRegion F} {gs : List (F × F)} {g : F × F} (hR : st.L k = some R)
    (hi : R.inner = .gauss gs) (hg : gs[i]? = some g) : (st.net w).kind (.gauss k i) = .leaf (newGaussianParams ((k.x1 : Int) + (k.y1 : Int) * (w : Int)) g.1 g.2) := by
  obtain ⟨inner, _, _, _⟩ := R
  cases hi
  simp [PState.net, hR, hg]

theorem net_gauss_cases (st : PState F) (w : Nat) (k : Rect) (i : Nat) :
    (∃ R gs g, st.L k = some R ∧ R.inner = .gauss gs ∧ gs[i]? = some g) ∨ (st.net w).kind (.gauss k i) = .sum [] [] := by
  unfold PState.net
  dsimp only
  split
  · split
    · rename_i gs _ _ _ h1 _ g h2
      exact Or.inl ⟨_, gs, g, h1, rfl, h2⟩
    · exact Or.inr rfl
  · exact Or.inr rfl

theorem net_sum_cases (st : PState F) (w : Nat) (k : Rect) (i : Nat) :
    (∃ R ss kids, st.L k = some R ∧ R.inner = .sums ss ∧ ss[i]? = some kids ∧
      (st.net w).kind (.sum k i) = .sum (kids.map fun c => .prod c.1) (kids.map (·.2))) ∨ (st.net w).kind (.sum k i) = .sum [] [] := by
  unfold PState.net
  dsimp only
  split
  · split
    · rename_i ss _ _ _ h1 _ kids h2
      exact Or.inl ⟨_, ss, kids, h1, rfl, h2, rfl⟩
    · exact Or.inr rfl
  · exact Or.inr rfl

theorem net_prod (st : PState F) (w : Nat) (d : Decomp) : (st.net w).kind (.prod d) = .product [st.inner d.p d.r, st.inner d.q d.s] := rfl

theorem inner_cases (st : PState F) (k : Rect) (i : Nat) : st.inner k i = .gauss k i ∨ st.inner k i = .sum k i := by
  unfold PState.inner
  split
  · exact Or.inl rfl
  · exact Or.inr rfl

/-- The rectangle a node is about. -/
def PNode.rect : PNode → Rect
  | .gauss k _ => k
  | .sum k _ => k
  | .prod d => ⟨min d.p.x1 d.q.x1, min d.p.y1 d.q.y1, max d.p.x2 d.q.x2, max d.p.y2 d.q.y2⟩

theorem inner_rect (st : PState F) (k : Rect) (i : Nat) : (st.inner k i).rect = k := by
  rcases inner_cases st k i with h | h <;> rw [h] <;> rfl

/-- Every pixel of the first is one of the second. -/
def Rect.Inside (a b : Rect) : Prop := b.x1 ≤ a.x1 ∧ a.x2 ≤ b.x2 ∧ b.y1 ≤ a.y1 ∧ a.y2 ≤ b.y2

theorem split_hull {k : Rect} {d : Decomp} (h : SplitOf k d.p d.q) : (PNode.prod d).rect = k := by
  obtain ⟨p, q, r, s⟩ := d
  cases k
  rcases h with ⟨x, h1, h2, h3, h4⟩ | ⟨y, h1, h2, h3, h4⟩
  · dsimp only at h1 h2 h3 h4
    subst h3 h4
    simp only [PNode.rect, Rect.mk.injEq]
    omega
  · dsimp only at h1 h2 h3 h4
    subst h3 h4
    simp only [PNode.rect, Rect.mk.injEq]
    omega

theorem child_sum {st : PState F} {w h : Nat} (hok : RegionsOk w h st.L) {k : Rect} {i : Nat} {c : PNode} (hc : c ∈ (st.net w).ch (.sum k i)) :
    ∃ d, c = .prod d ∧ SplitOf k d.p d.q := by
  unfold Net.ch at hc
  rcases net_sum_cases st w k i with ⟨R, ss, kids, h1, h2, h3, h4⟩ | h4
  · rw [h4] at hc
    dsimp only at hc
    obtain ⟨e, he, rfl⟩ := List.mem_map.1 hc
    exact ⟨e.1, rfl, ((hok k R h1).kids ss h2 kids (List.mem_of_getElem? h3) e he).1⟩
  · rw [h4] at hc
    cases hc

theorem child_gauss {st : PState F} {w : Nat} {k : Rect} {i : Nat} : (st.net w).ch (.gauss k i) = [] := by
  unfold Net.ch
  rcases net_gauss_cases st w k i with ⟨R, gs, g, h1, h2, h3⟩ | h4
  · rw [net_gauss h1 h2 h3]
  · rw [h4]

theorem child_prod {st : PState F} {w : Nat} {d : Decomp} : (st.net w).ch (.prod d) = [st.inner d.p d.r, st.inner d.q d.s] := rfl

theorem child_inside {st : PState F} {w h : Nat} (hok : RegionsOk w h st.L) {n c : PNode} (hc : c ∈ (st.net w).ch n) : c.rect.Inside n.rect := by
  cases n with
  | gauss k i => rw [child_gauss] at hc; cases hc
  | sum k i =>
    obtain ⟨d, rfl, hd⟩ := child_sum hok hc
    rw [split_hull hd]
    exact ⟨le_rfl, le_rfl, le_rfl, le_rfl⟩
  | prod d =>
    rw [child_prod] at hc
    simp only [List.mem_cons, List.not_mem_nil, or_false] at hc
    rcases hc with rfl | rfl <;> rw [inner_rect] <;> unfold Rect.Inside PNode.rect <;> dsimp only <;> omega

theorem reach_inside {st : PState F} {w h : Nat} (hok : RegionsOk w h st.L) {a b : PNode} (hr : Reach (st.net w).ch a b) : b.rect.Inside a.rect := by
  induction hr with
  | refl => exact ⟨le_rfl, le_rfl, le_rfl, le_rfl⟩
  | tail _ hc ih =>
    have := child_inside hok hc
    unfold Rect.Inside at *
    omega

/-- The variables of a node are among the pixels of its rectangle. -/
theorem scope_inside {st : PState F} {w h : Nat} (hok : RegionsOk w h st.L) {n : PNode} {v : Int} (hs : InScope (st.net w) n v) :
    ∃ x y, n.rect.x1 ≤ x ∧ x < n.rect.x2 ∧ n.rect.y1 ≤ y ∧ y < n.rect.y2 ∧ x < w ∧ y < h ∧ v = pixelVar w x y := by
  obtain ⟨m, l, hr, hk, hv⟩ := hs
  have hin := reach_inside hok hr
  cases m with
  | gauss k i =>
    rcases net_gauss_cases st w k i with ⟨R, gs, g, h1, h2, h3⟩ | h4
    · rw [net_gauss h1 h2 h3] at hk
      cases hk
      have hu := (hok k R h1).unit gs h2
      refine ⟨k.x1, k.y1, ?_⟩
      change k.Inside n.rect at hin
      unfold Rect.Inside at hin
      refine ⟨hin.1, by omega, hin.2.2.1, by omega, by omega, by omega, ?_⟩
      rw [← hv]
      rfl
    · rw [h4] at hk; cases hk
  | sum k i =>
    rcases net_sum_cases st w k i with ⟨R, ss, kids, h1, h2, h3, h4⟩ | h4 <;> rw [h4] at hk <;> cases hk
  | prod d => cases hk

theorem pixelVar_inj {w x y x' y' : Nat} (hx : x < w) (hx' : x' < w) (h : pixelVar w x y = pixelVar w x' y') : x = x' ∧ y = y' := by
  unfold pixelVar at h
  have h' : x + y * w = x' + y' * w := by exact_mod_cast h
  have h1 : (x + y * w) % w = x := by rw [Nat.add_mul_mod_self_right, Nat.mod_eq_of_lt hx]
  have h2 : (x' + y' * w) % w = x' := by rw [Nat.add_mul_mod_self_right, Nat.mod_eq_of_lt hx']
  have hxx : x = x' := by rw [← h1, ← h2, h']
  subst hxx
  refine ⟨rfl, ?_⟩
  have : y * w = y' * w := by omega
  exact Nat.eq_of_mul_eq_mul_right (by omega) this

theorem split_disjoint {st : PState F} {w h : Nat} (hok : RegionsOk w h st.L) {k : Rect} {d : Decomp} (hd : SplitOf k d.p d.q) (v : Int) :
    ¬ (InScope (st.net w) (st.inner d.p d.r) v ∧ InScope (st.net w) (st.inner d.q d.s) v) := by
  rintro ⟨h1, h2⟩
  obtain ⟨x, y, a1, a2, a3, a4, a5, a6, a7⟩ := scope_inside hok h1
  obtain ⟨x', y', b1, b2, b3, b4, b5, b6, b7⟩ := scope_inside hok h2
  rw [inner_rect] at a1 a2 a3 a4 b1 b2 b3 b4
  obtain ⟨rfl, rfl⟩ := pixelVar_inj a5 b5 (a7.symm.trans b7)
  rcases hd with ⟨z, _, _, h3, h4⟩ | ⟨z, _, _, h3, h4⟩ <;> rw [h3] at a1 a2 a3 a4 <;> rw [h4] at b1 b2 b3 b4 <;> dsimp only at * <;> omega

/-- A rank that falls along every edge. -/
def PNode.rank : PNode → Nat
  | .gauss _ _ => 0
  | .sum k _ => 2 * ((k.x2 - k.x1) + (k.y2 - k.y1))
  | .prod d => 2 * max ((d.p.x2 - d.p.x1) + (d.p.y2 - d.p.y1)) ((d.q.x2 - d.q.x1) + (d.q.y2 - d.q.y1)) + 1

theorem poon_acyclic {st : PState F} {w h : Nat} (hok : RegionsOk w h st.L) : Acyclic (st.net w).ch := by
  refine ⟨PNode.rank, ?_⟩
  intro n c hc
  cases n with
  | gauss k i => rw [child_gauss] at hc; cases hc
  | sum k i =>
    obtain ⟨d, rfl, hd⟩ := child_sum hok hc
    obtain ⟨p, q, r, s⟩ := d
    rcases hd with ⟨z, h1, h2, h3, h4⟩ | ⟨z, h1, h2, h3, h4⟩ <;> dsimp only at h3 h4 <;> subst h3 h4 <;> simp only [PNode.rank] <;> omega
  | prod d =>
    rw [child_prod] at hc
    simp only [List.mem_cons, List.not_mem_nil, or_false] at hc
    rcases hc with rfl | rfl
    · rcases inner_cases st d.p d.r with h | h <;> rw [h] <;> simp only [PNode.rank] <;> omega
    · rcases inner_cases st d.q d.s with h | h <;> rw [h] <;> simp only [PNode.rank] <;> omega

/-- A product below a sum or a Gaussian cuts the rectangle of some sum. -/
theorem prod_parent {st : PState F} {w h : Nat} (hok : RegionsOk w h st.L) {S : PNode} (hS : ∀ d, S ≠ .prod d) {d : Decomp} (hr : Reach (st.net w).ch S (.prod d)) :
    SplitOf (PNode.prod d).rect d.p d.q := by
  rcases Relation.ReflTransGen.cases_tail hr with h | ⟨m, _, hc⟩
  · exact absurd h.symm (hS d)
  · cases m with
    | gauss k i => rw [child_gauss] at hc; cases hc
    | sum k i =>
      obtain ⟨d', h', hd⟩ := child_sum hok hc
      cases h'
      rw [split_hull hd]
      exact hd
    | prod e =>
      rw [child_prod] at hc
      simp only [List.mem_cons, List.not_mem_nil, or_false] at hc
      rcases hc with h | h
      · rcases inner_cases st e.p e.r with h' | h' <;> rw [h'] at h <;> cases h
      · rcases inner_cases st e.q e.s with h' | h' <;> rw [h'] at h <;> cases h

/-- If every reachable sum has a child, a node is about all pixels of its rectangle. -/
theorem scope_full {st : PState F} {w h : Nat} (hok : RegionsOk w h st.L) {S : PNode} (hS : ∀ d, S ≠ .prod d)
    (hfull : ∀ n, Reach (st.net w).ch S n → (st.net w).type n ≠ .leaf → (st.net w).ch n ≠ []) {n : PNode} (hn : Reach (st.net w).ch S n)
    {x y : Nat} (hx : n.rect.x1 ≤ x ∧ x < n.rect.x2) (hy : n.rect.y1 ≤ y ∧ y < n.rect.y2) : InScope (st.net w) n (pixelVar w x y) := by
  induction hk : n.rank using Nat.strong_induction_on generalizing n with
  | _ rk ih =>
  subst hk
  have hstep : ∀ c ∈ (st.net w).ch n, c.rank < n.rank → (c.rect.x1 ≤ x ∧ x < c.rect.x2) → (c.rect.y1 ≤ y ∧ y < c.rect.y2) → InScope (st.net w) n (pixelVar w x y) := by
    intro c hc hlt h1 h2
    obtain ⟨m, l, h3, h4⟩ := ih _ hlt (hn.tail hc) h1 h2 rfl
    exact ⟨m, l, Relation.ReflTransGen.head hc h3, h4⟩
  cases n with
  | gauss k i =>
    rcases net_gauss_cases st w k i with ⟨R, gs, g, h1, h2, h3⟩ | h4
    · refine ⟨_, _, Relation.ReflTransGen.refl, net_gauss h1 h2 h3, ?_⟩
      have hu := (hok k R h1).unit gs h2
      simp only [PNode.rect] at hx hy
      have e1 : k.x1 = x := by omega
      have e2 : k.y1 = y := by omega
      rw [e1, e2]
      rfl
    · exact absurd child_gauss (hfull _ hn (by unfold Net.type; rw [h4]; simp))
  | sum k i =>
    have hne := hfull _ hn (by unfold Net.type; rcases net_sum_cases st w k i with ⟨R, ss, kids, h1, h2, h3, h4⟩ | h4 <;> rw [h4] <;> simp)
    obtain ⟨c, hc⟩ := List.exists_mem_of_ne_nil _ hne
    obtain ⟨d, rfl, hd⟩ := child_sum hok hc
    refine hstep _ hc ?_ ?_ ?_
    · obtain ⟨p, q, r, s⟩ := d
      rcases hd with ⟨z, h1, h2, h3, h4⟩ | ⟨z, h1, h2, h3, h4⟩ <;> dsimp only at h3 h4 <;> subst h3 h4 <;> simp only [PNode.rank] <;> omega
    · rw [split_hull hd]; exact hx
    · rw [split_hull hd]; exact hy
  | prod d =>
    have hd := prod_parent hok hS hn
    have hp : ∀ c, c = st.inner d.p d.r ∨ c = st.inner d.q d.s → c ∈ (st.net w).ch (.prod d) ∧ c.rank < (PNode.prod d).rank := by
      intro c hc
      refine ⟨by rw [child_prod]; simpa using hc, ?_⟩
      rcases hc with rfl | rfl
      · rcases inner_cases st d.p d.r with h | h <;> rw [h] <;> simp only [PNode.rank] <;> omega
      · rcases inner_cases st d.q d.s with h | h <;> rw [h] <;> simp only [PNode.rank] <;> omega
    have hpq : (d.p.x1 ≤ x ∧ x < d.p.x2) ∧ (d.p.y1 ≤ y ∧ y < d.p.y2) ∨ (d.q.x1 ≤ x ∧ x < d.q.x2) ∧ (d.q.y1 ≤ y ∧ y < d.q.y2) := by
      rcases hd with ⟨z, _, _, h3, h4⟩ | ⟨z, _, _, h3, h4⟩ <;> rw [h3, h4] <;> dsimp only <;> omega
    rcases hpq with ⟨h1, h2⟩ | ⟨h1, h2⟩
    · obtain ⟨g1, g2⟩ := hp _ (Or.inl rfl)
      exact hstep _ g1 g2 (by rw [inner_rect]; exact h1) (by rw [inner_rect]; exact h2)
    · obtain ⟨g1, g2⟩ := hp _ (Or.inr rfl)
      exact hstep _ g1 g2 (by rw [inner_rect]; exact h1) (by rw [inner_rect]; exact h2)

end Gospn
