/-
The first instance that learn/poon/poon.go sees: every region gets one product, in a sum chosen at random. Exact arithmetic.
-/
import Verif.Proofs.Poon
import Verif.Props.Stats
import Verif.Props.Gauss
import Verif.Model.Real

set_option linter.unusedSectionVars false
set_option linter.unusedSimpArgs false

namespace Gospn
open Spec GoFloat

/-- `sys.RandIntn(n)` is less than `n`. -/
def GoodPick (pick : Nat → Nat → Nat) : Prop := ∀ t n, 0 < n → pick t n < n

theorem drawFrom_good {α : Type} {pick : Nat → Nat → Nat} (hp : GoodPick pick) (t : Nat) {l : List α} (hl : l ≠ []) :
    ∃ a, drawFrom pick t l = some a ∧ a ∈ l ∧ l[pick t l.length]? = some a := by
  have h0 : 0 < l.length := List.length_pos_iff.2 hl
  have h := hp t l.length h0
  refine ⟨l[pick t l.length], ?_, List.getElem_mem _, List.getElem?_eq_getElem h⟩
  unfold drawFrom
  rw [if_neg (by omega), List.getElem?_eq_getElem h]

/-- The region at `k` was given its first product. -/
structure Placed (pick : Nat → Nat → Nat) (size : Rect → Nat) (P : Rect → Prop) (st : PState XR) (k : Rect) : Prop where
  map : ∃ R i a, st.L k = some R ∧ R.mapIndex = some i ∧ R.node k i = some (st.inner k i) ∧ st.tab (st.inner k i) = some (.fin a)
  used : ∀ R ss, st.L k = some R → R.inner = .sums ss → ∃ i d S T, R.mapIndex = some i ∧ ss[i]? = some [(d, ofInt 1)] ∧
    (∀ j kids, j ≠ i → ss[j]? = some kids → kids = []) ∧ ((∃ t, i = pick t ss.length) ∧ ss.length = size k) ∧ P d.p ∧ P d.q ∧
    st.L d.p = some S ∧ S.mapIndex = some d.r ∧ st.L d.q = some T ∧ T.mapIndex = some d.s
  unit : ∀ R gs, st.L k = some R → R.inner = .gauss gs → k.isUnit = true ∧ R.mapIndex = some 0 ∧ ∃ mu sigma : ℝ, 0 < sigma ∧ gs[0]? = some (.fin mu, .fin sigma)

/-- The region at `k` has sums, all without children. -/
def Fresh (st : PState XR) (step : Rect → Nat) (size : Rect → Nat) (k : Rect) : Prop :=
  st.L k = some ⟨.sums (List.replicate (size k) []), step k, none, List.replicate (size k) none⟩

/-- During the first instance: the regions in `P` are done, those in `l` are not. -/
structure FirstPass (pick : Nat → Nat → Nat) (step size : Rect → Nat) (P : Rect → Prop) (l : List Rect) (st : PState XR) : Prop where
  done : ∀ k, P k → Placed pick size P st k
  fresh : ∀ k ∈ l, Fresh st step size k
  counts : ∀ k i, st.counts (.sum k i) = none
  made : ∀ d, st.made d = true → P (PNode.prod d).rect

theorem replicate_unused (n : Nat) : (((List.replicate n ([] : List (Decomp × XR))).zipIdx.filter fun x => x.1.length = 0).map (·.2)) = List.range n := by
  have h : ((List.replicate n ([] : List (Decomp × XR))).zipIdx.filter fun x => x.1.length = 0) = (List.replicate n ([] : List (Decomp × XR))).zipIdx := by
    apply List.filter_eq_self.2
    intro x hx
    have := List.mem_zipIdx hx
    obtain ⟨_, h2, h3⟩ := this
    have : x.1 ∈ List.replicate n ([] : List (Decomp × XR)) := by rw [h3]; exact List.getElem_mem _
    rw [List.eq_of_mem_replicate this]
    simp
  rw [h, List.zipIdx_map_snd, List.length_replicate, List.range_eq_range']

theorem used_empty (pick : Nat → Nat → Nat) (infer : PState XR → PNode → Option (PNode → Option XR)) (st : PState XR) (k : Rect) (cd : Decomp) (mp : XR) (u : Used XR)
    (l : List (List (Decomp × XR) × Nat)) (hl : ∀ x ∈ l, x.1 = []) : l.foldlM (usedStep pick infer st k cd mp) u = some u := by
  induction l with
  | nil => rfl
  | cons x l ih =>
    have : usedStep pick infer st k cd mp u x = some u := by
      unfold usedStep
      rw [if_pos (by rw [hl x List.mem_cons_self]; rfl)]
    rw [List.foldlM_cons, this]
    exact ih (fun x hx => hl x (List.mem_cons_of_mem _ hx))

theorem inner_update (st : PState XR) (k : Rect) (R R' : PRegion XR) (hR : st.L k = some R) (hi : ∀ gs, R.inner = .gauss gs ↔ R'.inner = .gauss gs) (k' : Rect) (i : Nat)
    (tab counts made draws) : (PState.mk (Function.update st.L k (some R')) tab counts made draws).inner k' i = st.inner k' i := by
  unfold PState.inner
  by_cases hk : k' = k
  · subst hk
    simp only [Function.update_self, hR]
    obtain ⟨i1, a, b, c⟩ := R
    obtain ⟨i2, a', b', c'⟩ := R'
    cases i1 <;> cases i2
    · rfl
    · exact absurd ((hi _).1 rfl) (by simp)
    · exact absurd ((hi _).2 rfl) (by simp)
    · rfl
  · simp only [Function.update_of_ne hk]

theorem node_inner {st : PState XR} {k : Rect} {i : Nat} {R : PRegion XR} {n : PNode} (hR : st.L k = some R) (hn : R.node k i = some n) : n = st.inner k i := by
  unfold PRegion.node at hn
  unfold PState.inner
  rw [hR]
  obtain ⟨i1, a, b, c⟩ := R
  cases i1 <;> dsimp only at hn ⊢ <;> split at hn <;> cases hn <;> rfl

/-- The candidates when all parts are done. -/
theorem cand_first {st : PState XR} {P : Rect → Prop}
    (hP : ∀ k, P k → ∃ R i n a, st.L k = some R ∧ R.mapIndex = some i ∧ R.node k i = some n ∧ st.tab n = some (XR.fin a)) :
    ∀ (l : List (Rect × Rect)) (acc : List Decomp × XR), (∀ pq ∈ l, P pq.1 ∧ P pq.2) → (acc.1 ≠ [] → ∃ b, acc.2 = .fin b) →
      (∀ d ∈ acc.1, P d.p ∧ P d.q ∧ (∃ S, st.L d.p = some S ∧ S.mapIndex = some d.r) ∧ ∃ T, st.L d.q = some T ∧ T.mapIndex = some d.s) →
      ∃ D, l.foldlM (candStep st) acc = some D ∧ ((acc.1 ≠ [] ∨ l ≠ []) → D.1 ≠ [] ∧ ∃ b, D.2 = .fin b) ∧
        ∀ d ∈ D.1, P d.p ∧ P d.q ∧ (∃ S, st.L d.p = some S ∧ S.mapIndex = some d.r) ∧ ∃ T, st.L d.q = some T ∧ T.mapIndex = some d.s := by
  intro l
  induction l with
  | nil =>
    intro acc _ h1 h2
    refine ⟨acc, rfl, ?_, h2⟩
    rintro (h | h)
    · exact ⟨h, h1 h⟩
    · exact absurd rfl h
  | cons pq l ih =>
    intro acc hl h1 h2
    obtain ⟨hp, hq⟩ := hl pq List.mem_cons_self
    obtain ⟨S, i, s, a, e1, e2, e3, e4⟩ := hP _ hp
    obtain ⟨T, j, t, b, f1, f2, f3, f4⟩ := hP _ hq
    have hstep : ∃ acc', candStep st acc pq = some acc' ∧ acc'.1 ≠ [] ∧ (∃ b, acc'.2 = .fin b) ∧
        ∀ d ∈ acc'.1, P d.p ∧ P d.q ∧ (∃ S, st.L d.p = some S ∧ S.mapIndex = some d.r) ∧ ∃ T, st.L d.q = some T ∧ T.mapIndex = some d.s := by
      unfold candStep
      simp only [e1, e2, e3, f1, f2, f3, Option.bind_some, single, e4, f4, Option.getD_some]
      have hm : (if GoFloat.eq (XR.fin a) (ninf : XR) || GoFloat.eq (XR.fin b) (ninf : XR) then (ninf : XR) else GoFloat.add (XR.fin a) (XR.fin b)) = XR.fin (a + b) := by
        simp [XR.g_eq, XR.g_ninf, XR.eq, XR.g_add, XR.add_fin]
      rw [hm]
      have hd : ∀ d ∈ [(⟨pq.1, pq.2, i, j⟩ : Decomp)], P d.p ∧ P d.q ∧ (∃ S, st.L d.p = some S ∧ S.mapIndex = some d.r) ∧ ∃ T, st.L d.q = some T ∧ T.mapIndex = some d.s := by
        intro d hd
        rw [List.mem_singleton] at hd
        subst hd
        exact ⟨hp, hq, ⟨S, e1, e2⟩, T, f1, f2⟩
      by_cases hc : (acc.1.isEmpty || GoFloat.lt acc.2 (XR.fin (a + b))) = true
      · rw [if_pos hc]
        have : (GoFloat.eq (XR.fin (a + b)) (XR.fin (a + b))) = true := by simp [XR.g_eq, XR.eq]
        rw [if_pos this]
        exact ⟨_, rfl, by simp, ⟨_, rfl⟩, by simpa using hd⟩
      · rw [if_neg hc]
        have hne : acc.1 ≠ [] := by
          intro h0
          rw [h0] at hc
          simp at hc
        obtain ⟨z, hz⟩ := h1 hne
        split
        · refine ⟨_, rfl, by simp, ⟨z, hz⟩, ?_⟩
          intro d hd'
          rcases List.mem_append.1 hd' with hd' | hd'
          · exact h2 d hd'
          · exact hd d hd'
        · exact ⟨acc, rfl, hne, ⟨z, hz⟩, h2⟩
    obtain ⟨acc', g1, g2, g3, g4⟩ := hstep
    obtain ⟨D, k1, k2, k3⟩ := ih acc' (fun x hx => hl x (List.mem_cons_of_mem _ hx)) (fun _ => g3) g4
    refine ⟨D, ?_, fun _ => k2 (Or.inl g2), k3⟩
    rw [List.foldlM_cons, g1]
    exact k1

/-- One region during the first instance. -/
theorem compMap_first {pick : Nat → Nat → Nat} (hpick : GoodPick pick) {infer : PState XR → PNode → Option (PNode → Option XR)} {step size : Rect → Nat} {P : Rect → Prop}
    {k : Rect} {l : List Rect} {st : PState XR} (hst : FirstPass pick step size P (k :: l) st) (hk : ¬ P k) (hkl : k ∉ l) (hsize : 0 < size k)
    (hne : splits k (step k) ≠ []) (hparts : ∀ pq ∈ splits k (step k), P pq.1 ∧ P pq.2) :
    ∃ st', compMap pick infer st k = some st' ∧ FirstPass pick step size (fun k' => P k' ∨ k' = k) l st' := by
  have hf : st.L k = _ := hst.fresh k List.mem_cons_self
  have hup : Function.update st.L k (some ⟨.sums (List.replicate (size k) []), step k, none, List.replicate (size k) none⟩) = st.L := by
    rw [← hf, Function.update_eq_self]
  have hdone : ∀ k, P k → ∃ R i n a, st.L k = some R ∧ R.mapIndex = some i ∧ R.node k i = some n ∧ st.tab n = some (XR.fin a) := by
    intro k hk
    obtain ⟨R, i, a, h1, h2, h3, h4⟩ := (hst.done k hk).map
    exact ⟨R, i, _, a, h1, h2, h3, h4⟩
  obtain ⟨D, hD, hD1, hD2⟩ := cand_first hdone (splits k (step k)) ([], ninf) hparts (fun h => absurd rfl h) (by simp)
  obtain ⟨hDne, b, hb⟩ := hD1 (Or.inr hne)
  obtain ⟨cd, hcd, hcdm, _⟩ := drawFrom_good hpick (st.draws + 1) hDne
  have hUne : List.range (size k) ≠ [] := by simp; omega
  obtain ⟨ci, hci, hcim, hcit⟩ := drawFrom_good hpick st.draws hUne
  have hcilt : ci < size k := List.mem_range.1 hcim
  have hsplit : SplitOf k cd.p cd.q := cand_splits hD cd hcdm
  obtain ⟨hPp, hPq, ⟨S, hS, hSm⟩, T, hT, hTm⟩ := hD2 cd hcdm
  have hmade : st.made cd = false := by
    cases hm : st.made cd with
    | false => rfl
    | true =>
      have := hst.made cd hm
      rw [split_hull hsplit] at this
      exact absurd this hk
  have hSn : ∃ n, S.node cd.p cd.r = some n := by
    obtain ⟨R, i, a, h1, h2, h3, h4⟩ := (hst.done _ hPp).map
    rw [hS] at h1
    cases h1
    rw [hSm] at h2
    cases h2
    exact ⟨_, h3⟩
  have hTn : ∃ n, T.node cd.q cd.s = some n := by
    obtain ⟨R, i, a, h1, h2, h3, h4⟩ := (hst.done _ hPq).map
    rw [hT] at h1
    cases h1
    rw [hTm] at h2
    cases h2
    exact ⟨_, h3⟩
  obtain ⟨ns, hSn⟩ := hSn
  obtain ⟨nt, hTn⟩ := hTn
  have hcit2 : (List.range (size k))[pick st.draws (size k)]? = some ci := by simpa using hcit
  have hcieq : ci = pick st.draws (size k) := by
    have hlt := hpick st.draws (size k) hsize
    rw [List.getElem?_range hlt] at hcit2
    cases hcit2
    rfl
  -- the run
  have hrun : compMap pick infer st k = some
      ⟨Function.update st.L k (some ⟨.sums ((List.replicate (size k) []).set ci [(cd, ofInt 1)]), step k, some ci, (List.replicate (size k) none).set ci (some cd)⟩),
        Function.update st.tab (.sum k ci) (some (GoFloat.sub D.2 (GoFloat.log (GoFloat.add (single st.counts (.sum k ci)) (ofInt 1))))),
        Function.update st.counts (.prod cd) (some (GoFloat.add (single st.counts (.prod cd)) (ofInt 1))), Function.update st.made cd true, st.draws + 1 + 1 + 1⟩ := by
    unfold compMap
    rw [hf, Option.bind_some]
    dsimp only
    rw [hup, replicate_unused]
    rw [if_neg (by simp; omega)]
    rw [hci]
    simp only [Option.map_some, Option.bind_some]
    rw [hD, Option.bind_some, hcd, Option.bind_some, used_empty, Option.bind_some]
    · have hnode : (PRegion.mk (.sums (List.replicate (size k) [])) (step k) none (List.replicate (size k) none) : PRegion XR).node k ci = some (.sum k ci) := by
        unfold PRegion.node
        dsimp only
        rw [if_pos (by simpa using hcilt)]
      rw [hnode, Option.bind_some]
      dsimp only
      have hset : setIdx (List.replicate (size k) (none : Option Decomp)) ci (some cd) = some ((List.replicate (size k) none).set ci (some cd)) := by
        unfold setIdx
        rw [if_pos (by simpa using hcilt)]
      rw [hset, Option.bind_some]
      simp only [List.isEmpty_nil, Bool.true_or, if_true]
      have hone : drawFrom pick (st.draws + 1 + 1) [ci] = some ci := by
        unfold drawFrom
        have := hpick (st.draws + 1 + 1) 1 (by omega)
        have h0 : pick (st.draws + 1 + 1) 1 = 0 := by omega
        simp [h0]
      rw [hone, Option.bind_some]
      have hget : ((List.replicate (size k) (none : Option Decomp)).set ci (some cd))[ci]? = some (some cd) := by
        rw [List.getElem?_set_self (by simpa using hcilt)]
      rw [hget, Option.bind_some, Option.bind_some]
      unfold placeProduct
      dsimp only
      rw [hmade]
      simp only [Bool.false_eq_true, if_false]
      rw [hS, hT, Option.bind_some, Option.bind_some, hSn, hTn, Option.bind_some, Option.bind_some]
      have hkids : (List.replicate (size k) ([] : List (Decomp × XR)))[ci]? = some [] := by
        rw [List.getElem?_replicate, if_pos hcilt]
      rw [hkids, Option.bind_some]
      rfl
    · intro x hx
      obtain ⟨_, h2, h3⟩ := List.mem_zipIdx hx
      have : x.1 ∈ List.replicate (size k) ([] : List (Decomp × XR)) := by rw [h3]; exact List.getElem_mem _
      exact List.eq_of_mem_replicate this
  refine ⟨_, hrun, ?_⟩
  have hinner : ∀ (tab counts made draws) (k' : Rect) (i : Nat),
      (PState.mk (Function.update st.L k (some ⟨.sums ((List.replicate (size k) []).set ci [(cd, ofInt 1)]), step k, some ci,
        (List.replicate (size k) none).set ci (some cd)⟩)) tab counts made draws).inner k' i = st.inner k' i := by
    intro tab counts made draws k' i
    exact inner_update st k _ _ hf (by simp) k' i tab counts made draws
  have hne' : ∀ k', P k' → k' ≠ k := by
    rintro k' h' rfl
    exact hk h'
  refine ⟨?_, ?_, ?_, ?_⟩
  · intro k' hk'
    by_cases hkk : k' = k
    · subst hkk
      refine ⟨⟨_, ci, b - Real.log (0 + 1), Function.update_self .., rfl, ?_, ?_⟩, ?_, ?_⟩
      · rw [hinner]
        have : st.inner k' ci = .sum k' ci := by
          unfold PState.inner
          rw [hf]
        rw [this]
        unfold PRegion.node
        dsimp only
        rw [if_pos (by simpa using hcilt)]
      · rw [hinner]
        have : st.inner k' ci = .sum k' ci := by
          unfold PState.inner
          rw [hf]
        rw [this]
        simp only [Function.update_self, single, hst.counts, Option.getD_none, hb]
        simp [XR.g_ofInt, XR.g_add, XR.g_log, XR.g_sub, XR.add_fin, XR.log, XR.sub_fin]
      · intro R ss hR hss
        simp only [Function.update_self, Option.some.injEq] at hR
        subst hR
        cases hss
        refine ⟨ci, cd, S, T, rfl, ?_, ?_, ?_, Or.inl hPp, Or.inl hPq, ?_, hSm, ?_, hTm⟩
        · rw [List.getElem?_set_self (by simpa using hcilt)]
        · intro j kids hj hjk
          rw [List.getElem?_set_ne (Ne.symm hj)] at hjk
          exact List.eq_of_mem_replicate (List.mem_of_getElem? hjk)
        · exact ⟨⟨st.draws, by rw [List.length_set, List.length_replicate]; exact hcieq⟩, by rw [List.length_set, List.length_replicate]⟩
        · dsimp only
          rw [Function.update_of_ne (hne' _ hPp)]
          exact hS
        · dsimp only
          rw [Function.update_of_ne (hne' _ hPq)]
          exact hT
      · intro R gs hR hgs
        simp only [Function.update_self, Option.some.injEq] at hR
        subst hR
        cases hgs
    · have hPk' : P k' := by
        rcases hk' with h | h
        · exact h
        · exact absurd h hkk
      obtain ⟨⟨R, i, a, h1, h2, h3, h4⟩, hu, hg⟩ := hst.done k' hPk'
      refine ⟨⟨R, i, a, by dsimp only; rw [Function.update_of_ne hkk]; exact h1, h2, by rw [hinner]; exact h3, ?_⟩, ?_, ?_⟩
      · rw [hinner]
        have : st.inner k' i ≠ .sum k ci := by
          rcases inner_cases st k' i with h | h <;> rw [h] <;> simp
          intro h'
          exact absurd h' hkk
        dsimp only
        rw [Function.update_of_ne this]
        exact h4
      · intro R ss hR hss
        dsimp only at hR
        rw [Function.update_of_ne hkk] at hR
        obtain ⟨i, d, S, T, g1, g2, g3, g4, g5, g6, g7, g8, g9, g10⟩ := hu R ss hR hss
        refine ⟨i, d, S, T, g1, g2, g3, g4, Or.inl g5, Or.inl g6, ?_, g8, ?_, g10⟩
        · dsimp only
          rw [Function.update_of_ne (hne' _ g5)]
          exact g7
        · dsimp only
          rw [Function.update_of_ne (hne' _ g6)]
          exact g9
      · intro R gs hR hgs
        dsimp only at hR
        rw [Function.update_of_ne hkk] at hR
        exact hg R gs hR hgs
  · intro k' hk'
    have hkk : k' ≠ k := by
      rintro rfl
      exact hkl hk'
    unfold Fresh
    dsimp only
    rw [Function.update_of_ne hkk]
    exact hst.fresh k' (List.mem_cons_of_mem _ hk')
  · intro k' i
    dsimp only
    rw [Function.update_of_ne (by simp)]
    exact hst.counts k' i
  · intro d hd
    by_cases hdd : d = cd
    · subst hdd
      right
      exact split_hull hsplit
    · dsimp only at hd
      rw [Function.update_of_ne hdd] at hd
      exact Or.inl (hst.made d hd)

/-- All regions during the first instance: each comes after its parts. -/
theorem regions_first {pick : Nat → Nat → Nat} (hpick : GoodPick pick) {infer : PState XR → PNode → Option (PNode → Option XR)} {step size : Rect → Nat} :
    ∀ (l : List Rect) {P : Rect → Prop} {st : PState XR}, FirstPass pick step size P l st → (∀ k ∈ l, ¬ P k) → (∀ k ∈ l, 0 < size k ∧ splits k (step k) ≠ []) →
      (l.Pairwise fun a b => ¬ b.Inside a) → (∀ k ∈ l, ∀ pq ∈ splits k (step k), (P pq.1 ∨ pq.1 ∈ l) ∧ (P pq.2 ∨ pq.2 ∈ l)) →
      ∃ st', l.foldlM (compMap pick infer) st = some st' ∧ FirstPass pick step size (fun k => P k ∨ k ∈ l) [] st' := by
  intro l
  induction l with
  | nil =>
    intro P st hst _ _ _ _
    exact ⟨st, rfl, by simpa using hst⟩
  | cons k l ih =>
    intro P st hst hP hs hpw hparts
    rw [List.pairwise_cons] at hpw
    have hself : k.Inside k := ⟨le_rfl, le_rfl, le_rfl, le_rfl⟩
    have hkl : k ∉ l := fun h => hpw.1 k h hself
    have hin : ∀ pq ∈ splits k (step k), P pq.1 ∧ P pq.2 := by
      intro pq hpq
      have hs := mem_splits hpq
      have hi : pq.1.Inside k ∧ pq.2.Inside k ∧ pq.1 ≠ k ∧ pq.2 ≠ k := by
        obtain ⟨p, q⟩ := pq
        obtain ⟨x1, y1, x2, y2⟩ := k
        rcases hs with ⟨x, h1, h2, h3, h4⟩ | ⟨y, h1, h2, h3, h4⟩ <;> dsimp only at h1 h2 h3 h4 <;> subst h3 h4 <;>
          simp only [Rect.Inside, ne_eq, Rect.mk.injEq] <;> omega
      obtain ⟨h1, h2⟩ := hparts k List.mem_cons_self pq hpq
      constructor
      · rcases h1 with h1 | h1
        · exact h1
        · rcases List.mem_cons.1 h1 with h1 | h1
          · exact absurd h1 hi.2.2.1
          · exact absurd hi.1 (hpw.1 _ h1)
      · rcases h2 with h2 | h2
        · exact h2
        · rcases List.mem_cons.1 h2 with h2 | h2
          · exact absurd h2 hi.2.2.2
          · exact absurd hi.2.1 (hpw.1 _ h2)
    obtain ⟨st1, h1, h2⟩ := compMap_first hpick (infer := infer) hst (hP k List.mem_cons_self) hkl (hs k List.mem_cons_self).1 (hs k List.mem_cons_self).2 hin
    obtain ⟨st2, h3, h4⟩ := ih h2
      (by
        rintro k' hk' (h | h)
        · exact hP k' (List.mem_cons_of_mem _ hk') h
        · subst h; exact hkl hk')
      (fun k' hk' => hs k' (List.mem_cons_of_mem _ hk')) hpw.2
      (by
        intro k' hk' pq hpq
        obtain ⟨g1, g2⟩ := hparts k' (List.mem_cons_of_mem _ hk') pq hpq
        simp only [List.mem_cons] at g1 g2
        tauto)
    refine ⟨st2, ?_, ?_⟩
    · rw [List.foldlM_cons, h1]
      exact h3
    · have : (fun k' => (P k' ∨ k' = k) ∨ k' ∈ l) = (fun k' => P k' ∨ k' ∈ k :: l) := by
        funext k'
        simp only [List.mem_cons, or_assoc]
      rw [← this]
      exact h4

end Gospn
