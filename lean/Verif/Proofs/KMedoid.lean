import Verif.Proofs.Cluster
import Mathlib.Algebra.BigOperators.Group.Finset.Basic
import Mathlib.Algebra.Order.BigOperators.Group.Finset
import Mathlib.Data.Prod.Lex
import Mathlib.Data.List.Dedup
set_option linter.unusedSectionVars false
set_option linter.unusedSimpArgs false
/-
KMedoid: medoids stay in their clusters, and every move lowers the total distance to the medoids.
-/
namespace Gospn
open Spec GoFloat

/-- Total distance of the rows of a cluster to its medoid. -/
def clusterCost (data : List (List Int)) (m : Nat) (cl : List Nat) : Nat := (cl.map fun i => rowDiff (data.getD m []) (data.getD i [])).sum

/-- Total distance of the rows to the medoids of their clusters. -/
def medoidCost (data : List (List Int)) (k : Nat) (st : MedoidState) : Nat :=
  ∑ c ∈ Finset.range k, clusterCost data (st.means.getD c 0) (st.clusters.getD c [])

/-- `k` clusters that hold the assigned rows, each with its medoid among its rows. -/
structure MedoidInv (data : List (List Int)) (k : Nat) (st : MedoidState) (chk : List (Option Nat)) : Prop where
  mlen : st.means.length = k
  clen : st.clusters.length = k
  len : chk.length = data.length
  bound : ∀ i v, chk.getD i none = some v → v < k
  mem : ∀ (c : Nat) (cl : List Nat), st.clusters[c]? = some cl → cl.Nodup ∧ ∀ i, i ∈ cl ↔ chk.getD i none = some c
  medoid : ∀ (c : Nat) (cl : List Nat) (m : Nat), st.clusters[c]? = some cl → st.means[c]? = some m → m ∈ cl

/-- Distance of a row to the medoid of cluster `j`. -/
def medoidDist (data : List (List Int)) (st : MedoidState) (j : Nat) (row : List Int) : Int := (rowDiff (data.getD (st.means.getD j 0) []) row : Int)

theorem chk_lt {data : List (List Int)} {chk : List (Option Nat)} (hl : chk.length = data.length) {i v : Nat} (h : chk.getD i none = some v) : i < data.length := by
  rw [← hl]
  by_contra hlt
  rw [List.getD_eq_getElem?_getD, List.getElem?_eq_none (by omega)] at h
  cases h

theorem hamming_rowDiff {p q : List Int} (h : p.length = q.length) : hamming p q = some (rowDiff p q : Int) := hamming_eq p q h

theorem sumHamming_eq {W : Nat} {data : List (List Int)} (hrect : RowsOfLength W data) {v : List Int} (hv : v.length = W) {keys : List Nat}
    (hk : ∀ i ∈ keys, i < data.length) : sumHamming data v keys = some (((keys.map fun i => rowDiff v (data.getD i [])).sum : Nat) : Int) := by
  unfold sumHamming
  have key : ∀ (l : List Nat) (s : Int), (∀ i ∈ l, i < data.length) → l.foldlM (fun s j => (hamming v (data.getD j [])).map fun d => s + d) s =
      some (s + ((l.map fun i => rowDiff v (data.getD i [])).sum : Nat)) := by
    intro l
    induction l with
    | nil => intro s _; simp
    | cons i l ih =>
      intro s hl
      have hi := hl i (by simp)
      have hg : data.getD i [] = data[i] := by simp [List.getD_eq_getElem?_getD, hi]
      rw [List.foldlM_cons, hamming_rowDiff (by rw [hv, hg, hrect _ (List.getElem_mem hi)])]
      simp only [Option.map_some, Option.bind_eq_bind, Option.bind_some]
      rw [ih _ (fun j hj => hl j (by simp [hj]))]
      simp only [List.map_cons, List.sum_cons]
      push_cast
      congr 1; ring
  rw [key keys 0 hk]; simp

theorem rowDiff_self (p : List Int) : rowDiff p p = 0 := by
  unfold rowDiff
  rw [List.countP_eq_zero]
  intro x hx
  have : x.1 = x.2 := by
    induction p with
    | nil => simp at hx
    | cons a p ih =>
      simp only [List.zip_cons_cons, List.mem_cons] at hx
      rcases hx with rfl | hx
      · rfl
      · exact ih hx
  simp [this]

theorem sum_change {k w : Nat} (hw : w < k) (f g : Nat → Nat) (h : ∀ c, c ≠ w → g c = f c) :
    ∑ c ∈ Finset.range k, g c + f w = ∑ c ∈ Finset.range k, f c + g w := by
  have hm : w ∈ Finset.range k := Finset.mem_range.2 hw
  have he : ∑ c ∈ (Finset.range k).erase w, g c = ∑ c ∈ (Finset.range k).erase w, f c := Finset.sum_congr rfl (fun c hc => h c (Finset.ne_of_mem_erase hc))
  have h1 := Finset.add_sum_erase _ g hm
  have h2 := Finset.add_sum_erase _ f hm
  omega

theorem getD_set_ne {α : Type} (l : List α) {i j : Nat} (a d : α) (h : i ≠ j) : (l.set i a).getD j d = l.getD j d := by
  simp [List.getD_eq_getElem?_getD, List.getElem?_set, h]

theorem getD_set_eq {α : Type} (l : List α) {i : Nat} (a d : α) (h : i < l.length) : (l.set i a).getD i d = a := by
  simp [List.getD_eq_getElem?_getD, h]

theorem getD_of_getElem? {α : Type} {l : List α} {i : Nat} {a d : α} (h : l[i]? = some a) : l.getD i d = a := by
  simp [List.getD_eq_getElem?_getD, h]

section Ops
variable {data : List (List Int)} {W k : Nat} {ord : List Nat → List Nat}

/-- Adding an unassigned row to a cluster. Stated for clusters that agree with `chk` except for row `i`, so that it also serves for moves. -/
theorem medoidInsert_ok (hrect : RowsOfLength W data) (hord : ∀ l, (ord l).Perm l) {st : MedoidState} {chk : List (Option Nat)} (h : MedoidInv data k st chk)
    {i : Nat} {row : List Int} (hrow : data[i]? = some row) (hnone : chk.getD i none = none) {w : Nat} (hw : w < k) :
    ∃ st', medoidInsert ord data st w row i = some st' ∧ MedoidInv data k st' (chk.set i (some w)) ∧
      (medoidCost data k st' : Int) ≤ medoidCost data k st + medoidDist data st w row := by
  have hi := (List.getElem?_eq_some_iff.1 hrow).1
  have hrl : row.length = W := hrect row (List.mem_of_getElem? hrow)
  have hgi : data.getD i [] = row := getD_of_getElem? hrow
  have e1 : st.clusters[w]? = some (st.clusters[w]'(by rw [h.clen]; exact hw)) := List.getElem?_eq_getElem _
  have e2 : st.means[w]? = some (st.means[w]'(by rw [h.mlen]; exact hw)) := List.getElem?_eq_getElem _
  generalize st.clusters[w]'(by rw [h.clen]; exact hw) = cl at e1
  generalize st.means[w]'(by rw [h.mlen]; exact hw) = m at e2
  have hnot : i ∉ cl := by rw [(h.mem w cl e1).2 i, hnone]; simp
  have hmcl := h.medoid w cl m e1 e2
  have hkeys : ∀ j ∈ ord (cl ++ [i]), j < data.length := by
    intro j hj
    rw [(hord _).mem_iff] at hj
    rcases List.mem_append.1 hj with hj | hj
    · exact chk_lt h.len (((h.mem w cl e1).2 j).1 hj)
    · rw [List.mem_singleton.1 hj]; exact hi
  have hm : m < data.length := chk_lt h.len (((h.mem w cl e1).2 m).1 hmcl)
  have hmg : data.getD m [] = data[m] := by simp [List.getD_eq_getElem?_getD, hm]
  have hmr : medoidRow data (cl ++ [i]) m = data.getD m [] := by simp [medoidRow, hmcl]
  have hml : (data.getD m []).length = W := by rw [hmg]; exact hrect _ (List.getElem_mem hm)
  unfold medoidInsert
  simp only [e1, e2, Option.bind_some, if_neg hnot, hmr, sumHamming_eq hrect hml hkeys, sumHamming_eq hrect hrl hkeys, Option.map_some]
  refine ⟨_, rfl, ⟨?_, by simp [h.clen], by simp [h.len], ?_, ?_, ?_⟩, ?_⟩
  · dsimp only; split <;> simp [h.mlen]
  · intro a v hv
    by_cases hia : i = a
    · subst hia
      rw [getD_set_eq _ _ _ (by rw [h.len]; exact hi)] at hv; cases hv; exact hw
    · rw [getD_set_ne _ _ _ hia] at hv; exact h.bound a v hv
  · intro c cl' hcl'
    dsimp only at hcl'
    rw [List.getElem?_set] at hcl'
    by_cases hwc : w = c
    · subst hwc
      simp only [if_true, h.clen, hw] at hcl'
      cases hcl'
      refine ⟨?_, ?_⟩
      · rw [List.nodup_append]
        exact ⟨(h.mem w cl e1).1, List.nodup_singleton i, by rintro a ha b hb rfl; rw [List.mem_singleton] at hb; subst hb; exact hnot ha⟩
      · intro a
        by_cases hia : i = a
        · subst hia
          rw [getD_set_eq _ _ _ (by rw [h.len]; exact hi)]; simp
        · rw [getD_set_ne _ _ _ hia, List.mem_append, (h.mem w cl e1).2 a, List.mem_singleton]
          constructor
          · rintro (h1 | h1)
            · exact h1
            · exact absurd h1.symm hia
          · exact Or.inl
    · simp only [hwc, if_false] at hcl'
      refine ⟨(h.mem c cl' hcl').1, fun a => ?_⟩
      by_cases hia : i = a
      · subst hia
        rw [getD_set_eq _ _ _ (by rw [h.len]; exact hi), (h.mem c cl' hcl').2 i, hnone]
        simp [hwc]
      · rw [getD_set_ne _ _ _ hia]; exact (h.mem c cl' hcl').2 a
  · intro c cl' m' hcl' hm'
    dsimp only at hcl' hm'
    rw [List.getElem?_set] at hcl'
    by_cases hwc : w = c
    · subst hwc
      simp only [if_true, h.clen, hw] at hcl'
      cases hcl'
      split at hm'
      · rw [List.getElem?_set] at hm'
        simp only [if_true, h.mlen, hw] at hm'
        cases hm'; simp
      · rw [e2] at hm'; cases hm'; simp [hmcl]
    · simp only [hwc, if_false] at hcl'
      have hm'' : st.means[c]? = some m' := by
        split at hm'
        · rwa [List.getElem?_set, if_neg hwc] at hm'
        · exact hm'
      exact h.medoid c cl' m' hcl' hm''
  · -- the cost
    have hwc : w < st.clusters.length := by rw [h.clen]; exact hw
    have hwm : w < st.means.length := by rw [h.mlen]; exact hw
    have hgw : st.clusters.getD w [] = cl := getD_of_getElem? e1
    have hgm : st.means.getD w 0 = m := getD_of_getElem? e2
    have hperm : ∀ u : List Int, ((ord (cl ++ [i])).map fun j => rowDiff u (data.getD j [])).sum = (cl.map fun j => rowDiff u (data.getD j [])).sum + rowDiff u row := by
      intro u
      rw [((hord (cl ++ [i])).map _).sum_eq]; simp [hrow]
    simp only [hperm]
    have key : ∀ mm, clusterCost data mm (cl ++ [i]) ≤ clusterCost data m cl + rowDiff (data.getD m []) row →
        ∀ M : List Nat, M.getD w 0 = mm → (∀ c, c ≠ w → M.getD c 0 = st.means.getD c 0) →
        (medoidCost data k ⟨M, st.clusters.set w (cl ++ [i])⟩ : Int) ≤ medoidCost data k st + medoidDist data st w row := by
      intro mm hle M hM hM'
      have := sum_change hw (fun c => clusterCost data (st.means.getD c 0) (st.clusters.getD c []))
        (fun c => clusterCost data (M.getD c 0) ((st.clusters.set w (cl ++ [i])).getD c []))
        (fun c hc => by rw [hM' c hc, getD_set_ne _ _ _ (Ne.symm hc)])
      rw [hM, getD_set_eq _ _ _ hwc, hgm, hgw] at this
      unfold medoidCost medoidDist
      rw [hgm]
      dsimp only
      omega
    have h1 : clusterCost data m (cl ++ [i]) = clusterCost data m cl + rowDiff (data.getD m []) row := by simp [clusterCost, hrow]
    split
    · rename_i hlt
      refine key i ?_ _ (getD_set_eq _ _ _ hwm) (fun c hc => getD_set_ne _ _ _ (Ne.symm hc))
      have h2 : clusterCost data i (cl ++ [i]) = (cl.map fun j => rowDiff row (data.getD j [])).sum + rowDiff row row := by simp [clusterCost, hrow]
      rw [h2]
      have h3 : clusterCost data m cl = (cl.map fun j => rowDiff (data.getD m []) (data.getD j [])).sum := rfl
      rw [h3]
      omega
    · exact key m (le_of_eq h1) _ hgm (fun c _ => rfl)

/-- Taking out a row that is not the medoid of its cluster. -/
theorem medoidRemove_ok {st : MedoidState} {chk : List (Option Nat)} (h : MedoidInv data k st chk)
    {i : Nat} {row : List Int} (hrow : data[i]? = some row) {v : Nat} (hv : chk.getD i none = some v) (hne : st.means.getD v 0 ≠ i) :
    ∃ st1, medoidRemove ord data st v row i = some st1 ∧ MedoidInv data k st1 (chk.set i none) ∧ st1.means = st.means ∧
      (medoidCost data k st1 : Int) + medoidDist data st v row = medoidCost data k st := by
  have hi := (List.getElem?_eq_some_iff.1 hrow).1
  have hgi : data.getD i [] = row := getD_of_getElem? hrow
  have hw := h.bound i v hv
  have e1 : st.clusters[v]? = some (st.clusters[v]'(by rw [h.clen]; exact hw)) := List.getElem?_eq_getElem _
  have e2 : st.means[v]? = some (st.means[v]'(by rw [h.mlen]; exact hw)) := List.getElem?_eq_getElem _
  generalize st.clusters[v]'(by rw [h.clen]; exact hw) = cl at e1
  generalize st.means[v]'(by rw [h.mlen]; exact hw) = m at e2
  have hgw : st.clusters.getD v [] = cl := getD_of_getElem? e1
  have hgm : st.means.getD v 0 = m := getD_of_getElem? e2
  rw [hgm] at hne
  have hicl : i ∈ cl := ((h.mem v cl e1).2 i).2 hv
  unfold medoidRemove
  simp only [e1, e2, Option.bind_some, if_neg hne]
  refine ⟨_, rfl, ⟨h.mlen, by simp [h.clen], by simp [h.len], ?_, ?_, ?_⟩, rfl, ?_⟩
  · intro a u hu
    by_cases hia : i = a
    · subst hia
      rw [getD_set_eq _ _ _ (by rw [h.len]; exact hi)] at hu; cases hu
    · rw [getD_set_ne _ _ _ hia] at hu; exact h.bound a u hu
  · intro c cl' hcl'
    dsimp only at hcl'
    rw [List.getElem?_set] at hcl'
    by_cases hwc : v = c
    · subst hwc
      simp only [if_true, h.clen, hw] at hcl'
      cases hcl'
      refine ⟨(h.mem v cl e1).1.filter _, fun a => ?_⟩
      rw [List.mem_filter, (h.mem v cl e1).2 a]
      by_cases hia : i = a
      · subst hia
        rw [getD_set_eq _ _ _ (by rw [h.len]; exact hi)]; simp
      · rw [getD_set_ne _ _ _ hia]; simp [Ne.symm hia]
    · simp only [hwc, if_false] at hcl'
      refine ⟨(h.mem c cl' hcl').1, fun a => ?_⟩
      by_cases hia : i = a
      · subst hia
        rw [getD_set_eq _ _ _ (by rw [h.len]; exact hi), (h.mem c cl' hcl').2 i, hv]
        simp [hwc]
      · rw [getD_set_ne _ _ _ hia]; exact (h.mem c cl' hcl').2 a
  · intro c cl' m' hcl' hm'
    dsimp only at hcl' hm'
    rw [List.getElem?_set] at hcl'
    by_cases hwc : v = c
    · subst hwc
      simp only [if_true, h.clen, hw] at hcl'
      cases hcl'
      rw [e2] at hm'; cases hm'
      rw [List.mem_filter]
      exact ⟨h.medoid v cl m e1 e2, by simpa using hne⟩
    · simp only [hwc, if_false] at hcl'
      exact h.medoid c cl' m' hcl' hm'
  · have hwc : v < st.clusters.length := by rw [h.clen]; exact hw
    have := sum_change hw (fun c => clusterCost data (st.means.getD c 0) (st.clusters.getD c []))
      (fun c => clusterCost data (st.means.getD c 0) ((st.clusters.set v (cl.filter (· ≠ i))).getD c []))
      (fun c hc => by rw [getD_set_ne _ _ _ (Ne.symm hc)])
    rw [getD_set_eq _ _ _ hwc, hgm, hgw] at this
    have hsplit : clusterCost data m cl = clusterCost data m (cl.filter (· ≠ i)) + rowDiff (data.getD m []) row := by
      have hp : cl.Perm (i :: cl.filter (· ≠ i)) := by
        have h1 : cl.filter (· ≠ i) = cl.erase i := by
          rw [List.Nodup.erase_eq_filter (h.mem v cl e1).1]
          apply List.filter_congr
          intro a _; by_cases ha : a = i <;> simp [ha]
        rw [h1]; exact List.perm_cons_erase hicl
      unfold clusterCost
      rw [(hp.map _).sum_eq, List.map_cons, List.sum_cons, hgi]; omega
    unfold medoidCost medoidDist
    rw [hgm]
    dsimp only at this ⊢
    omega

/-- The invariant of the loop of KMedoid. -/
theorem medoidCentreInv (hrect : RowsOfLength W data) (hord : ∀ l, (ord l).Perm l) :
    CentreInv (medoidOps ord data) k data (MedoidInv data k) (medoidDist data) where
  len h := h.len
  chk h hv := h.bound _ _ hv
  dist := by
    intro st chk j row h hj hmem
    have e1 : st.clusters[j]? = some (st.clusters[j]'(by rw [h.clen]; exact hj)) := List.getElem?_eq_getElem _
    have e2 : st.means[j]? = some (st.means[j]'(by rw [h.mlen]; exact hj)) := List.getElem?_eq_getElem _
    generalize st.clusters[j]'(by rw [h.clen]; exact hj) = cl at e1
    generalize st.means[j]'(by rw [h.mlen]; exact hj) = m at e2
    have hmcl := h.medoid j cl m e1 e2
    have hm : m < data.length := chk_lt h.len (((h.mem j cl e1).2 m).1 hmcl)
    have hmg : data.getD m [] = data[m] := by simp [List.getD_eq_getElem?_getD, hm]
    have hgm : st.means.getD j 0 = m := getD_of_getElem? e2
    unfold medoidDist
    rw [hgm]
    refine ⟨?_, ?_⟩
    · simp only [medoidOps, e1, e2, Option.bind_some, medoidRow, hmcl, if_true]
      exact hamming_rowDiff (by rw [hmg, hrect _ (List.getElem_mem hm), hrect _ hmem])
    · have : rowDiff (data.getD m []) row ≤ row.length := by
        unfold rowDiff
        refine (List.countP_le_length).trans ?_
        rw [List.length_zip]; omega
      exact_mod_cast this
  insert := by
    intro st chk i row w h hrow hnone hw
    obtain ⟨st', e, h1, _⟩ := medoidInsert_ok hrect hord h hrow hnone hw
    exact ⟨st', e, h1⟩
  move := by
    intro st chk i row v w h hrow hv hw hne hlt
    have hi := (List.getElem?_eq_some_iff.1 hrow).1
    have hm : st.means.getD v 0 ≠ i := by
      intro hm
      have : medoidDist data st v row = 0 := by
        unfold medoidDist; rw [hm, getD_of_getElem? hrow, rowDiff_self]; rfl
      rw [this] at hlt
      have : 0 ≤ medoidDist data st w row := by unfold medoidDist; omega
      omega
    obtain ⟨st1, e1, h1, h2, _⟩ := medoidRemove_ok (ord := ord) h hrow hv hm
    obtain ⟨st', e, h3, _⟩ := medoidInsert_ok hrect hord h1 hrow (getD_set_eq _ _ _ (by rw [h.len]; exact hi)) hw
    refine ⟨st1, st', e1, e, ?_⟩
    rwa [List.set_set] at h3

/-! ### The loop ends -/

/-- Number of rows without a cluster. -/
def unassigned (chk : List (Option Nat)) : Nat := chk.countP fun x => x.isNone

theorem unassigned_set {chk : List (Option Nat)} {i w : Nat} (hi : i < chk.length) :
    unassigned (chk.set i (some w)) + (if chk.getD i none = none then 1 else 0) = unassigned chk := by
  unfold unassigned
  rw [List.countP_set (h := hi), getD_of_getElem? (List.getElem?_eq_getElem hi)]
  cases hc : chk[i] with
  | none =>
    have : 0 < chk.countP fun x => x.isNone := List.countP_pos_iff.2 ⟨chk[i], List.getElem_mem hi, by simp [hc]⟩
    simp; omega
  | some v => simp

theorem medoid_terminates (hrect : RowsOfLength W data) (hord : ∀ l, (ord l).Perm l) (hk : 0 < k) : ∀ (x : ℕ ×ₗ ℕ ×ₗ ℕ) (L : CentreLoop MedoidState),
    LoopInv k data (MedoidInv data k) (medoidDist data) L →
    x = toLex (unassigned L.chk, toLex (medoidCost data k L.st, data.length - L.nochange)) →
    ∃ m L', centreRun (medoidOps ord data) k data m L = some L' ∧ data.length ≤ L'.nochange := by
  intro x
  induction x using WellFoundedLT.induction with
  | _ x ih =>
    intro L hL hx
    by_cases hend : data.length ≤ L.nochange
    · exact ⟨0, L, rfl, hend⟩
    · obtain ⟨L', row, w, e, hL', hrow, hw, hmin, hcase⟩ := centreStep_spec (medoidCentreInv (ord := ord) hrect hord) hk hL
      have hi := hL.idx
      have hlt : toLex (unassigned L'.chk, toLex (medoidCost data k L'.st, data.length - L'.nochange)) < x := by
        rw [hx, Prod.Lex.toLex_lt_toLex]
        rcases hcase with ⟨h1, h2, h3, h4⟩ | ⟨v, st1, h1, h2, h3, h4, h5, h6, h7⟩ | ⟨h1, h2, h3, h4⟩
        · left
          have := unassigned_set (w := w) (by rw [hL.inv.len]; exact hi : L.i < L.chk.length)
          rw [h1, if_pos rfl, ← h4] at this
          show unassigned L'.chk < unassigned L.chk
          omega
        · right
          have := unassigned_set (w := w) (by rw [hL.inv.len]; exact hi : L.i < L.chk.length)
          rw [h1, if_neg (by simp), ← h7] at this
          refine ⟨by show unassigned L'.chk = unassigned L.chk; omega, ?_⟩
          show toLex (medoidCost data k L'.st, _) < toLex (medoidCost data k L.st, _)
          rw [Prod.Lex.toLex_lt_toLex]
          left
          show medoidCost data k L'.st < medoidCost data k L.st
          have hm : L.st.means.getD v 0 ≠ L.i := by
            intro hm
            have : medoidDist data L.st v row = 0 := by
              unfold medoidDist; rw [hm, getD_of_getElem? hrow, rowDiff_self]; rfl
            rw [this] at h3
            have : 0 ≤ medoidDist data L.st w row := by unfold medoidDist; omega
            omega
          obtain ⟨st1', e1, g1, g2, g3⟩ := medoidRemove_ok (ord := ord) hL.inv hrow h1 hm
          have e1' : medoidRemove ord data L.st v row L.i = some st1 := h5
          rw [e1'] at e1; cases e1
          obtain ⟨st', e', g4, g5⟩ := medoidInsert_ok hrect hord g1 hrow (getD_set_eq _ _ _ (by rw [hL.inv.len]; exact hi)) hw
          have e2' : medoidInsert ord data st1 w row L.i = some L'.st := h6
          rw [e2'] at e'; cases e'
          have : medoidDist data st1 w row = medoidDist data L.st w row := by unfold medoidDist; rw [g2]
          omega
        · right
          refine ⟨by show unassigned L'.chk = unassigned L.chk; rw [h4], ?_⟩
          show toLex (medoidCost data k L'.st, _) < toLex (medoidCost data k L.st, _)
          rw [Prod.Lex.toLex_lt_toLex]
          right
          refine ⟨by show medoidCost data k L'.st = medoidCost data k L.st; rw [h3], ?_⟩
          show data.length - L'.nochange < data.length - L.nochange
          omega
      obtain ⟨m, L2, e2, h2⟩ := ih _ hlt L' hL' rfl
      refine ⟨m + 1, L2, ?_, h2⟩
      show (if L.nochange < data.length then _ else _) = _
      rw [if_pos (by omega), e]; exact e2

end Ops
end Gospn
